import Verif.Props.FltRot
import Verif.Props.FltHull
import Verif.Lemmas.FltLup
import Verif.Lemmas.FltPolygon
import Verif.Lemmas.FltAp
import Verif.Lemmas.FltPlanePts
import Verif.Model.EulerG

/-! C153: `rotation_matrix_to_euler_angles` in IEEE arithmetic. -/

set_option linter.unusedSectionVars false
set_option linter.unusedSimpArgs false

namespace vm
open BinPar
variable {P : BinPar}

/-- The function `as` computes the arc sine of a number in [-1, 1] with a relative error of at most two rounding errors (and half of the least
positive number), and NaN elsewhere. -/
structure AccurateAsin (P : BinPar) (as : Flt P.fmt → Flt P.fmt) : Prop where
  fin : ∀ x, x.isFinite → |x.val| ≤ 1 → (as x).isFinite
  err : ∀ x, x.isFinite → |x.val| ≤ 1 → |((as x).val : ℝ) - Real.arcsin x.val| ≤ 2 * P.u * |Real.arcsin x.val| + P.eta
  nan : ∀ x, x.isFinite → 1 < |x.val| → as x = Flt.nan

/-- The vector `(x, y)` is not zero and has the direction `a`. -/
def IsAngle (a x y : ℝ) : Prop := ∃ r : ℝ, 0 < r ∧ x = r * Real.cos a ∧ y = r * Real.sin a

/-- The function `at2` computes the direction, between -π and π, of a vector that is not zero, with a relative error of at most two rounding errors (and half of
the least positive number), and NaN if a coordinate is NaN.  If `y` is zero and `x` is negative then both -π and π are allowed, so that the signs of zeros
do not matter. -/
structure AccurateAtan2 (P : BinPar) (at2 : Flt P.fmt → Flt P.fmt → Flt P.fmt) : Prop where
  fin : ∀ y x, y.isFinite → x.isFinite → (at2 y x).isFinite
  err : ∀ y x, y.isFinite → x.isFinite → (x.val ≠ 0 ∨ y.val ≠ 0) → ∃ a : ℝ, |a| ≤ Real.pi ∧ IsAngle a x.val y.val ∧
    |((at2 y x).val : ℝ) - a| ≤ 2 * P.u * |a| + P.eta
  nan : ∀ x, at2 Flt.nan x = Flt.nan

namespace FltEu

theorem exists_asin (hp : 10 ≤ P.p) : ∃ f : Flt P.fmt → Flt P.fmt, AccurateAsin P f := by
  classical
  have h : ∀ x : Flt P.fmt, ∃ s : Flt P.fmt, s.isFinite ∧ |(s.val : ℝ) - Real.arcsin x.val| ≤ 2 * P.u * |Real.arcsin x.val| + P.eta := by
    intro x
    obtain ⟨s, a, b, -, -⟩ := FltRot.near_exists hp (y := Real.arcsin x.val) (by
      rw [abs_le]
      have := Real.neg_pi_div_two_le_arcsin (x.val : ℝ)
      have := Real.arcsin_le_pi_div_two (x.val : ℝ)
      constructor <;> linarith [Real.pi_le_four])
    exact ⟨s, a, b⟩
  choose f h1 h2 using h
  refine ⟨fun x => if |x.val| ≤ 1 then f x else Flt.nan, fun x _ h => ?_, fun x _ h => ?_, fun x _ h => ?_⟩
  · simp only [if_pos h]; exact h1 x
  · simp only [if_pos h]; exact h2 x
  · simp only [if_neg (not_le.2 h)]

theorem exists_atan2 (hp : 10 ≤ P.p) : ∃ f : Flt P.fmt → Flt P.fmt → Flt P.fmt, AccurateAtan2 P f := by
  classical
  have h : ∀ y x : Flt P.fmt, ∃ s : Flt P.fmt, s.isFinite ∧ |(s.val : ℝ) - Complex.arg ⟨x.val, y.val⟩| ≤ 2 * P.u * |Complex.arg ⟨x.val, y.val⟩| + P.eta := by
    intro y x
    obtain ⟨s, a, b, -, -⟩ := FltRot.near_exists hp (y := Complex.arg ⟨x.val, y.val⟩) ((Complex.abs_arg_le_pi _).trans Real.pi_le_four)
    exact ⟨s, a, b⟩
  choose f h1 h2 using h
  refine ⟨fun y x => if y = Flt.nan then Flt.nan else f y x, fun y x hy _ => ?_, fun y x hy _ h0 => ?_, fun x => if_pos rfl⟩
  · have : y ≠ Flt.nan := fun h => by subst h; exact hy
    simp only [if_neg this]; exact h1 y x
  · have : y ≠ Flt.nan := fun h => by subst h; exact hy
    simp only [if_neg this]
    refine ⟨_, Complex.abs_arg_le_pi ⟨x.val, y.val⟩, ⟨‖(⟨x.val, y.val⟩ : ℂ)‖, ?_, ?_, ?_⟩, h2 y x⟩
    · refine norm_pos_iff.2 fun h => ?_
      have e1 := congrArg Complex.re h
      have e2 := congrArg Complex.im h
      simp at e1 e2
      rcases h0 with h0 | h0
      · exact h0 e1
      · exact h0 e2
    · have := Complex.norm_mul_cos_arg ⟨x.val, y.val⟩
      exact this.symm
    · have := Complex.norm_mul_sin_arg ⟨x.val, y.val⟩
      exact this.symm

theorem abs_arctan_le (t : ℝ) : |Real.arctan t| ≤ |t| := by
  have key : ∀ t : ℝ, 0 ≤ t → Real.arctan t ≤ t := fun t h => by
    have h0 : 0 ≤ Real.arctan t := Real.arctan_nonneg.2 h
    have := Real.le_tan h0 (Real.arctan_lt_pi_div_two t)
    rwa [Real.tan_arctan] at this
  rcases le_total 0 t with h | h
  · rw [abs_of_nonneg h, abs_of_nonneg (Real.arctan_nonneg.2 h)]; exact key t h
  · have h1 := key (-t) (by linarith)
    rw [Real.arctan_neg] at h1
    have h2 : Real.arctan t ≤ 0 := by
      have := Real.arctan_nonneg.2 (show 0 ≤ -t by linarith)
      rw [Real.arctan_neg] at this; linarith
    rw [abs_of_nonpos h, abs_of_nonpos h2]; exact h1

/-- Two vectors that almost agree have almost the same direction. -/
theorem angle_shift {a x y x' y' ε : ℝ} (h : IsAngle a x' y') (hd : 0 < x * x' + y * y') (hk : |x' * y - y' * x| ≤ ε * (x * x' + y * y')) :
    ∃ b, IsAngle b x y ∧ |b - a| ≤ ε := by
  obtain ⟨r, hr, hx, hy⟩ := h
  set D := x * x' + y * y' with hD
  set t := (x' * y - y' * x) / D with ht
  have c0 := Real.cos_arctan_pos t
  have hs : Real.sin (Real.arctan t) = t * Real.cos (Real.arctan t) := by
    have := Real.tan_arctan t
    rw [Real.tan_eq_sin_div_cos, div_eq_iff c0.ne'] at this
    exact this
  have rr : x' ^ 2 + y' ^ 2 = r ^ 2 := by
    rw [hx, hy]
    linear_combination r ^ 2 * Real.sin_sq_add_cos_sq a
  have hc : r * Real.cos a = x' := hx.symm
  have hs' : r * Real.sin a = y' := hy.symm
  have tD : t * D = x' * y - y' * x := by rw [ht]; field_simp
  have g1 : D * Real.cos a - t * D * Real.sin a = x * r := by
    apply mul_left_cancel₀ hr.ne'
    rw [tD]
    linear_combination D * hc - (x' * y - y' * x) * hs' + x * rr + x' * hD
  have g2 : D * Real.sin a + t * D * Real.cos a = y * r := by
    apply mul_left_cancel₀ hr.ne'
    rw [tD]
    linear_combination D * hs' + (x' * y - y' * x) * hc + y * rr + y' * hD
  have m : ∀ z : ℝ, D / (Real.cos (Real.arctan t) * r) * (z * Real.cos (Real.arctan t)) = D * z / r := fun z => by field_simp
  refine ⟨a + Real.arctan t, ⟨D / (Real.cos (Real.arctan t) * r), by positivity, ?_, ?_⟩, ?_⟩
  · rw [Real.cos_add, hs, show Real.cos a * Real.cos (Real.arctan t) - Real.sin a * (t * Real.cos (Real.arctan t)) =
      (Real.cos a - t * Real.sin a) * Real.cos (Real.arctan t) by ring, m, eq_div_iff hr.ne', ← g1]
    ring
  · rw [Real.sin_add, hs, show Real.sin a * Real.cos (Real.arctan t) + Real.cos a * (t * Real.cos (Real.arctan t)) =
      (Real.sin a + t * Real.cos a) * Real.cos (Real.arctan t) by ring, m, eq_div_iff hr.ne', ← g2]
    ring
  · rw [add_sub_cancel_left]
    refine (abs_arctan_le t).trans ?_
    rw [ht, abs_div, abs_of_pos hd, div_le_iff₀ hd]
    exact hk

theorem angle_scale {a x y c : ℝ} (hc : 0 < c) (h : IsAngle a (x / c) (y / c)) : IsAngle a x y := by
  obtain ⟨r, hr, hx, hy⟩ := h
  refine ⟨r * c, by positivity, ?_, ?_⟩
  · rw [div_eq_iff hc.ne'] at hx; rw [hx]; ring
  · rw [div_eq_iff hc.ne'] at hy; rw [hy]; ring

/-- The change of the direction by rounding the coordinates. -/
theorem round_dir {u η x y x' y' : ℝ} (hu0 : 0 < u) (hu : 1000 * u ≤ 1) (hx : |x' - x| ≤ u * |x| + η) (hy : |y' - y| ≤ u * |y| + η)
    (hl : 4 * η ≤ u * (|x| + |y|)) (h0 : 0 < |x| + |y|) :
    0 < x * x' + y * y' ∧ |x' * y - y' * x| ≤ 8 / 5 * u * (x * x' + y * y') := by
  have x0 := abs_nonneg x
  have y0 := abs_nonneg y
  set s := |x| + |y| with hs
  have xx : x * x = |x| * |x| := (abs_mul_abs_self x).symm
  have yy : y * y = |y| * |y| := (abs_mul_abs_self y).symm
  have k1 : |x * (x' - x)| ≤ |x| * (u * |x| + η) := by rw [abs_mul]; exact mul_le_mul_of_nonneg_left hx x0
  have k2 : |y * (y' - y)| ≤ |y| * (u * |y| + η) := by rw [abs_mul]; exact mul_le_mul_of_nonneg_left hy y0
  have k3 : |y * (x' - x)| ≤ |y| * (u * |x| + η) := by rw [abs_mul]; exact mul_le_mul_of_nonneg_left hx y0
  have k4 : |x * (y' - y)| ≤ |x| * (u * |y| + η) := by rw [abs_mul]; exact mul_le_mul_of_nonneg_left hy x0
  have e1 : x * x' + y * y' = x * x + y * y + x * (x' - x) + y * (y' - y) := by ring
  have e2 : x' * y - y' * x = y * (x' - x) - x * (y' - y) := by ring
  set q := |x| * |x| + |y| * |y| with hq
  have s2 : s * s ≤ 2 * q := by rw [hs, hq]; nlinarith [sq_nonneg (|x| - |y|)]
  have q0 : 0 < q := by have : 0 < s * s := by positivity
                        linarith
  have hηs : η * s ≤ u * q / 2 := by
    have := mul_le_mul_of_nonneg_right hl h0.le
    nlinarith
  have uq : u * q ≤ 1 / 1000 * q := mul_le_mul_of_nonneg_right (by linarith) q0.le
  have lo : q - 3 / 2 * (u * q) ≤ x * x' + y * y' := by
    rw [e1, xx, yy]
    have a1 := (abs_le.1 k1).1
    have a2 := (abs_le.1 k2).1
    have : |x| * (u * |x| + η) + |y| * (u * |y| + η) = u * q + η * s := by rw [hq, hs]; ring
    linarith
  refine ⟨by linarith, ?_⟩
  have hi : |x' * y - y' * x| ≤ 3 / 2 * (u * q) := by
    rw [e2]
    refine (abs_sub _ _).trans ?_
    have p : 2 * (|x| * |y|) ≤ q := by rw [hq]; nlinarith [sq_nonneg (|x| - |y|)]
    have p2 := mul_le_mul_of_nonneg_left p hu0.le
    have : |y| * (u * |x| + η) + |x| * (u * |y| + η) = u * (2 * (|x| * |y|)) + η * s := by rw [hs]; ring
    linarith
  refine hi.trans ?_
  have := mul_le_mul_of_nonneg_left lo (show 0 ≤ 8 / 5 * u by positivity)
  have h2 : u * (u * q) ≤ 1 / 1000 * (u * q) := mul_le_mul_of_nonneg_right (by linarith) (by positivity)
  have : 0 < u * q := by positivity
  linarith

/-- The cosine of the pitch is not too small. -/
theorem cos_pitch {u η g θ : ℝ} (hu0 : 0 < u) (hu : 1000 * u ≤ 1) (hη : 2 * η ≤ u * u) (hg : |g| ≤ 1 - u)
    (hθ : |θ - Real.arcsin g| ≤ 2 * u * |Real.arcsin g| + η) : 3 / 5 * √u ≤ Real.cos θ := by
  have su : 0 < √u := Real.sqrt_pos.2 hu0
  have su2 : √u * √u = u := Real.mul_self_sqrt hu0.le
  have su1 : √u ≤ 1 / 31 := by
    rw [Real.sqrt_le_left (by norm_num)]; nlinarith
  have u31 : u ≤ √u * (1 / 31) := by nlinarith
  -- the arc sine
  have A : |Real.arcsin g| ≤ Real.pi / 2 - 7 / 5 * √u := by
    have key : ∀ z : ℝ, z ≤ 1 - u → Real.arcsin z ≤ Real.pi / 2 - 7 / 5 * √u := fun z hz => by
      rw [Real.arcsin_le_iff_le_sin' ⟨by linarith [Real.pi_gt_three], by linarith [Real.pi_gt_three]⟩, Real.sin_pi_div_two_sub]
      have := Real.one_sub_sq_div_two_le_cos (x := 7 / 5 * √u)
      nlinarith
    rw [abs_le]
    obtain ⟨g1, g2⟩ := abs_le.1 hg
    have := key (-g) (by linarith)
    rw [Real.arcsin_neg] at this
    exact ⟨by linarith, key g g2⟩
  have B : |θ| ≤ Real.pi / 2 - √u := by
    have h1 := abs_sub_abs_le_abs_sub θ (Real.arcsin g)
    have h2 : 2 * u * |Real.arcsin g| ≤ 2 * u * (Real.pi / 2) := mul_le_mul_of_nonneg_left (by linarith) (by positivity)
    have h3 := Real.pi_lt_d2
    have h4 : u * Real.pi ≤ u * 3.15 := mul_le_mul_of_nonneg_left h3.le hu0.le
    have h5 : u * u ≤ u * (1 / 1000) := mul_le_mul_of_nonneg_left (by linarith) hu0.le
    linarith
  rw [← Real.cos_abs]
  have h6 : Real.cos (Real.pi / 2 - √u) ≤ Real.cos |θ| :=
    Real.cos_le_cos_of_nonneg_of_le_pi (abs_nonneg _) (by linarith [Real.pi_gt_three]) B
  rw [Real.cos_pi_div_two_sub] at h6
  have h7 := Real.mul_le_sin su.le (by linarith [Real.pi_gt_three])
  have h8 : (3 / 5 : ℝ) ≤ 2 / Real.pi := by
    rw [le_div_iff₀ Real.pi_pos]; linarith [Real.pi_lt_d2]
  have h9 := mul_le_mul_of_nonneg_right h8 su.le
  linarith

/-- There is no number between `1 - u` and one. -/
theorem rep_lt_one {q : ℚ} (h : P.Rep q) (h1 : |q| < 1) : |q| ≤ 1 - P.u := by
  obtain ⟨m, e, rfl, hm, -⟩ := h
  have e0 : (0 : ℚ) < 2 ^ e := by positivity
  rw [abs_mul, abs_of_pos e0] at h1 ⊢
  unfold BinPar.u
  rcases le_or_gt (-(P.p : ℤ)) e with he | he
  · rcases le_or_gt 0 e with h0 | h0
    · have : (1 : ℚ) ≤ 2 ^ e := one_le_zpow₀ (by norm_num) h0
      have hm0 : m = 0 := by
        by_contra hne
        have : (1 : ℚ) ≤ |(m : ℚ)| := by exact_mod_cast Int.one_le_abs hne
        nlinarith
      rw [hm0]
      have : (2 : ℚ) ^ (-(P.p : ℤ)) ≤ 1 := zpow_le_one_of_nonpos₀ (by norm_num) (by omega)
      rw [Int.cast_zero, abs_zero, zero_mul]
      linarith
    · obtain ⟨k, hk⟩ := Int.eq_ofNat_of_zero_le (show 0 ≤ -e by omega)
      have hek : (2 : ℚ) ^ e * 2 ^ k = 1 := by
        rw [← zpow_natCast, ← zpow_add₀ (by norm_num), ← hk, add_neg_cancel, zpow_zero]
      have h2 : |(m : ℚ)| < 2 ^ k := by
        have := mul_lt_mul_of_pos_right h1 (show (0 : ℚ) < 2 ^ k by positivity)
        rw [mul_assoc, hek, mul_one, one_mul] at this
        exact this
      have h3 : |m| < 2 ^ k := by exact_mod_cast h2
      have h4 : |m| + 1 ≤ 2 ^ k := h3
      have h5 : |(m : ℚ)| + 1 ≤ 2 ^ k := by exact_mod_cast h4
      have h6 : (2 : ℚ) ^ (-(P.p : ℤ)) ≤ 2 ^ e := zpow_le_zpow_right₀ (by norm_num) he
      have := mul_le_mul_of_nonneg_right h5 e0.le
      rw [mul_comm (2 ^ k) _, hek, add_mul, one_mul] at this
      linarith
  · have h4 : |m| + 1 ≤ 2 ^ P.p := hm
    have h5 : |(m : ℚ)| + 1 ≤ 2 ^ P.p := by exact_mod_cast h4
    have hek : (2 : ℚ) ^ (-(P.p : ℤ)) * 2 ^ P.p = 1 := by
      rw [zpow_neg, zpow_natCast]; field_simp
    have p0 : (0 : ℚ) < 2 ^ (-(P.p : ℤ)) := by positivity
    have h6 : (2 : ℚ) ^ e ≤ 2 ^ (-(P.p : ℤ)) := zpow_le_zpow_right₀ (by norm_num) he.le
    have h7 := mul_le_mul_of_nonneg_right h5 p0.le
    rw [mul_comm (2 ^ P.p) _, hek, add_mul, one_mul] at h7
    have h8 := mul_le_mul_of_nonneg_left h6 (abs_nonneg (m : ℚ))
    linarith

/-- One of the angles that are computed with `atan2`. -/
theorem one_angle (hu : 1000 * (P.u : ℝ) ≤ 1) {at2 : Flt P.fmt → Flt P.fmt → Flt P.fmt} (h2 : AccurateAtan2 P at2) {x y c : Flt P.fmt} (hx : x.isFinite)
    (hy : y.isFinite) (hc : c.isFinite) (hX : |x.val| ≤ 2) (hY : |y.val| ≤ 2) (hc0 : 1 / 2 * √(P.u : ℝ) ≤ c.val) (hc1 : (c.val : ℝ) ≤ 2)
    (hl : 8 * P.eta ≤ P.u * (|x.val| + |y.val|)) : (at2 (y / c) (x / c)).isFinite ∧ ∃ a, IsAngle a x.val y.val ∧ |((at2 (y / c) (x / c)).val : ℝ) - a| ≤ 8 * P.u := by
  have u0 := Ap.u_pos P
  have su : 0 < √(P.u : ℝ) := Real.sqrt_pos.2 u0
  have cpos : (0 : ℝ) < c.val := by linarith
  have cq : 0 < c.val := by exact_mod_cast cpos
  have su2 : √(P.u : ℝ) * √(P.u : ℝ) = P.u := Real.mul_self_sqrt u0.le
  have su1 : √(P.u : ℝ) ≤ 1 / 31 := by
    rw [Real.sqrt_le_left (by norm_num)]; nlinarith
  have hb : (4 : ℚ) / P.u ≤ P.bound := by
    unfold BinPar.u BinPar.bound
    rw [zpow_neg, div_inv_eq_mul, show (4 : ℚ) = 2 ^ (2 : ℤ) by norm_num, ← zpow_add₀ (by norm_num)]
    exact zpow_le_zpow_right₀ (by norm_num) (by have := P.hmax; omega)
  have hbr : (4 : ℝ) / P.u ≤ P.bound := by exact_mod_cast hb
  have big : ∀ {z : Flt P.fmt}, |z.val| ≤ 2 → 2 * |z.val / c.val| + 1 < P.bound := fun {z} hz => by
    have h1 : |(z.val : ℝ) / c.val| ≤ 4 / √(P.u : ℝ) := by
      rw [abs_div, abs_of_pos cpos, div_le_div_iff₀ cpos su]
      have : |(z.val : ℝ)| ≤ 2 := by exact_mod_cast hz
      have := mul_le_mul_of_nonneg_right this su.le
      linarith
    have h2' : 8 / √(P.u : ℝ) + 1 < 4 / P.u := by
      have k : ∀ t : ℝ, 0 < t → t ≤ 1 / 31 → 8 / t + 1 < 4 / (t * t) := fun t t0 t1 => by
        rw [div_add' _ _ _ t0.ne', div_lt_div_iff₀ t0 (by positivity)]
        nlinarith [mul_pos t0 t0]
      have := k _ su su1
      rwa [su2] at this
    have : 2 * |(z.val : ℝ) / c.val| + 1 < P.bound := by linarith [show 2 * (4 / √(P.u : ℝ)) = 8 / √(P.u : ℝ) by ring]
    exact_mod_cast this
  have dx := is_div (c := P.fl (x.val / c.val)) ⟨hx, rfl⟩ ⟨hc, rfl⟩ cq.ne' rfl (fl_lt_bound (big hX))
  have dy := is_div (c := P.fl (y.val / c.val)) ⟨hy, rfl⟩ ⟨hc, rfl⟩ cq.ne' rfl (fl_lt_bound (big hY))
  have ex := Ap.fl_err_real P (x.val / c.val)
  have ey := Ap.fl_err_real P (y.val / c.val)
  rw [← dx.2] at ex
  rw [← dy.2] at ey
  push_cast at ex ey
  have hη : (0 : ℝ) < P.eta := by exact_mod_cast P.eta_pos
  have hlr : 8 * (P.eta : ℝ) ≤ P.u * (|(x.val : ℝ)| + |(y.val : ℝ)|) := by exact_mod_cast hl
  have hs0 : 0 < |(x.val : ℝ)| + |(y.val : ℝ)| := by
    by_contra hcn
    have := mul_nonpos_of_nonneg_of_nonpos u0.le (not_lt.1 hcn)
    linarith
  have hsum : |(x.val : ℝ) / c.val| + |(y.val : ℝ) / c.val| = (|(x.val : ℝ)| + |(y.val : ℝ)|) / c.val := by
    rw [abs_div, abs_div, abs_of_pos cpos, add_div]
  have hsum2 : (|(x.val : ℝ)| + |(y.val : ℝ)|) / 2 ≤ |(x.val : ℝ) / c.val| + |(y.val : ℝ) / c.val| := by
    rw [hsum]
    exact div_le_div_of_nonneg_left hs0.le cpos hc1
  obtain ⟨d0, hd⟩ := round_dir u0 hu ex ey (by have := mul_le_mul_of_nonneg_left hsum2 u0.le; linarith) (by linarith)
  have hne : (x / c).val ≠ 0 ∨ (y / c).val ≠ 0 := by
    by_contra hcn
    rw [not_or, not_not, not_not] at hcn
    rw [hcn.1, hcn.2] at d0
    simp at d0
  obtain ⟨a, ha, hi, he⟩ := h2.err _ _ dy.1 dx.1 hne
  obtain ⟨b, hb1, hb2⟩ := angle_shift hi d0 hd
  refine ⟨h2.fin _ _ dy.1 dx.1, b, angle_scale cpos hb1, ?_⟩
  have := abs_sub_le ((at2 (y / c) (x / c)).val : ℝ) a b
  rw [abs_sub_comm a b] at this
  have h5 : 2 * P.u * |a| ≤ 2 * P.u * 3.15 := mul_le_mul_of_nonneg_left (ha.trans Real.pi_lt_d2.le) (by positivity)
  have h6 := Ap.eta_le P
  have h7 : (P.u : ℝ) * P.u ≤ P.u * (1 / 1000) := mul_le_mul_of_nonneg_left (by linarith) u0.le
  linarith

end FltEu

open FltEu

section
variable {sn cs as : Flt P.fmt → Flt P.fmt} {at2 : Flt P.fmt → Flt P.fmt → Flt P.fmt}

/-- Away from the poles the pitch is the negated arc sine of the entry, and roll and yaw are the directions given by two entries each, up to a few rounding errors,
however close the pitch is to a pole. -/
theorem C153_angles (hu : 1000 * P.u ≤ 1) (h1 : AccurateTrig P sn cs) (h2 : AccurateAsin P as) (h3 : AccurateAtan2 P at2) (hp : Flt P.fmt) (m : Mat (Flt P.fmt) 4 4)
    (hm : ∀ i j, (m i j).isFinite ∧ |(m i j).val| ≤ 2) (h : |(m 0 2).val| < 1) :
    let e := toEulerAnglesG as cs at2 hp m
    (e 1).isFinite ∧ |((e 1).val : ℝ) - -Real.arcsin (m 0 2).val| ≤ 4 * P.u ∧
    (8 * P.eta ≤ P.u * (|(m 2 2).val| + |(m 1 2).val|) → (e 0).isFinite ∧ ∃ a, IsAngle a (m 2 2).val (m 1 2).val ∧ |((e 0).val : ℝ) - a| ≤ 8 * P.u) ∧
    (8 * P.eta ≤ P.u * (|(m 0 0).val| + |(m 0 1).val|) → (e 2).isFinite ∧ ∃ a, IsAngle a (m 0 0).val (m 0 1).val ∧ |((e 2).val : ℝ) - a| ≤ 8 * P.u) := by
  intro e
  have u0 := Ap.u_pos P
  have hur : 1000 * (P.u : ℝ) ≤ 1 := by exact_mod_cast hu
  have hη : 2 * (P.eta : ℝ) ≤ P.u * P.u := by linarith [Ap.eta_le P]
  have uu : (P.u : ℝ) * P.u ≤ P.u * (1 / 1000) := mul_le_mul_of_nonneg_left (by linarith) u0.le
  have hc : Cmp.eq (vm.abs (m 0 2)) 1 = false := by
    obtain ⟨f1, f2⟩ := abs_flt (hm 0 2).1
    rw [FltHull.eq_val f1 Flt.one_finite, f2, Flt.one_val]
    exact decide_eq_false h.ne
  have he : e = ![at2 (m 1 2 / cs (-as (m 0 2))) (m 2 2 / cs (-as (m 0 2))), -as (m 0 2), at2 (m 0 1 / cs (-as (m 0 2))) (m 0 0 / cs (-as (m 0 2)))] := by
    show toEulerAnglesG as cs at2 hp m = _
    unfold toEulerAnglesG
    rw [hc]
    rfl
  have f1 := h2.fin _ (hm 0 2).1 h.le
  have e1 := h2.err _ (hm 0 2).1 h.le
  have f2 : (-as (m 0 2)).isFinite := Flt.neg_finite.2 f1
  have v2 : (-as (m 0 2)).val = -(as (m 0 2)).val := Flt.neg_val _
  have e2 : |((-as (m 0 2)).val : ℝ) - -Real.arcsin (m 0 2).val| ≤ 2 * P.u * |Real.arcsin (m 0 2).val| + P.eta := by
    rw [v2]; push_cast
    rw [show -((as (m 0 2)).val : ℝ) - -Real.arcsin (m 0 2).val = -((as (m 0 2)).val - Real.arcsin (m 0 2).val) by ring, abs_neg]
    exact e1
  have hg : |((m 0 2).val : ℝ)| ≤ 1 - P.u := by
    have := rep_lt_one (Flt.rep_val (m 0 2)).1 h
    exact_mod_cast this
  have hcos : 3 / 5 * √(P.u : ℝ) ≤ Real.cos (-as (m 0 2)).val := by
    refine cos_pitch (g := -(m 0 2).val) u0 hur hη (by rwa [abs_neg]) ?_
    rw [Real.arcsin_neg, abs_neg]
    exact e2
  have f3 := h1.cos_fin _ f2
  have e3 := h1.cos_err _ f2
  have su : 0 < √(P.u : ℝ) := Real.sqrt_pos.2 u0
  have su2 : √(P.u : ℝ) * √(P.u : ℝ) = P.u := Real.mul_self_sqrt u0.le
  have su1 : √(P.u : ℝ) ≤ 1 / 31 := by
    rw [Real.sqrt_le_left (by norm_num)]; nlinarith
  have hc1 := Real.cos_le_one ((-as (m 0 2)).val : ℝ)
  rw [abs_of_nonneg (by linarith : 0 ≤ Real.cos ((-as (m 0 2)).val : ℝ))] at e3
  obtain ⟨e4, e5⟩ := abs_le.1 e3
  have uc : P.u * Real.cos ((-as (m 0 2)).val : ℝ) ≤ 1 / 1000 * Real.cos ((-as (m 0 2)).val : ℝ) := mul_le_mul_of_nonneg_right (by linarith) (by linarith)
  have ulow : (P.u : ℝ) ≤ √(P.u : ℝ) * (1 / 31) := by nlinarith
  have b1 : 1 / 2 * √(P.u : ℝ) ≤ (cs (-as (m 0 2))).val := by linarith
  have b2 : ((cs (-as (m 0 2))).val : ℝ) ≤ 2 := by linarith
  rw [he]
  refine ⟨f2, ?_, fun hl => ?_, fun hl => ?_⟩
  · show |((-as (m 0 2)).val : ℝ) - -Real.arcsin (m 0 2).val| ≤ 4 * P.u
    refine e2.trans ?_
    have h5 : |Real.arcsin (m 0 2).val| ≤ 3.15 / 2 := by
      have := Real.neg_pi_div_two_le_arcsin ((m 0 2).val : ℝ)
      have := Real.arcsin_le_pi_div_two ((m 0 2).val : ℝ)
      rw [abs_le]
      constructor <;> linarith [Real.pi_lt_d2]
    have := mul_le_mul_of_nonneg_left h5 (show (0 : ℝ) ≤ 2 * P.u by positivity)
    linarith
  · exact one_angle hur h3 (hm 2 2).1 (hm 1 2).1 f3 (hm 2 2).2 (hm 1 2).2 b1 b2 hl
  · exact one_angle hur h3 (hm 0 0).1 (hm 0 1).1 f3 (hm 0 0).2 (hm 0 1).2 b1 b2 hl

/-- At the poles the yaw is zero, the pitch is the constant for a quarter turn, and the roll is the direction given by two entries. -/
theorem C153_poles (hu : 1000 * P.u ≤ 1) (h3 : AccurateAtan2 P at2) (hp : Flt P.fmt) (m : Mat (Flt P.fmt) 4 4) (hm : ∀ i j, (m i j).isFinite)
    (h : |(m 0 2).val| = 1) (h0 : (m 1 0).val ≠ 0 ∨ (m 2 0).val ≠ 0) :
    let e := toEulerAnglesG as cs at2 hp m
    e 2 = 0 ∧ e 1 = (if (m 0 2).val = -1 then hp else -hp) ∧ (e 0).isFinite ∧
    ∃ a, IsAngle a (-((m 0 2).val * (m 2 0).val)) (-((m 0 2).val * (m 1 0).val)) ∧ |((e 0).val : ℝ) - a| ≤ 7 * P.u := by
  intro e
  have u0 := Ap.u_pos P
  have hur : 1000 * (P.u : ℝ) ≤ 1 := by exact_mod_cast hu
  have hη : 2 * (P.eta : ℝ) ≤ P.u * P.u := by linarith [Ap.eta_le P]
  have uu : (P.u : ℝ) * P.u ≤ P.u * (1 / 1000) := mul_le_mul_of_nonneg_left (by linarith) u0.le
  have hc : Cmp.eq (vm.abs (m 0 2)) 1 = true := by
    obtain ⟨f1, f2⟩ := abs_flt (hm 0 2)
    rw [FltHull.eq_val f1 Flt.one_finite, f2, Flt.one_val]
    exact decide_eq_true h
  have n1 : (-1 : Flt P.fmt).isFinite ∧ (-1 : Flt P.fmt).val = -1 := ⟨Flt.neg_finite.2 Flt.one_finite, by rw [Flt.neg_val, Flt.one_val]⟩
  have hc2 : Cmp.eq (m 0 2) (-1) = decide ((m 0 2).val = -1) := by rw [FltHull.eq_val (hm 0 2) n1.1, n1.2]
  have he : e = if (m 0 2).val = -1 then ![at2 (m 1 0) (m 2 0), hp, 0] else ![at2 (-m 1 0) (-m 2 0), -hp, 0] := by
    show toEulerAnglesG as cs at2 hp m = _
    unfold toEulerAnglesG
    rw [hc, hc2]
    simp
  have bound : ∀ {r a : ℝ}, |a| ≤ Real.pi → |r - a| ≤ 2 * P.u * |a| + P.eta → |r - a| ≤ 7 * P.u := fun {r a} ha hr => by
    have h5 : 2 * P.u * |a| ≤ 2 * P.u * 3.15 := mul_le_mul_of_nonneg_left (ha.trans Real.pi_lt_d2.le) (by positivity)
    linarith
  rcases eq_or_eq_neg_of_abs_eq h with h | h
  · have hn : ¬ (m 0 2).val = -1 := by rw [h]; norm_num
    rw [if_neg hn] at he
    rw [he, if_neg hn]
    obtain ⟨a, ha, hi, hr⟩ := h3.err (-m 1 0) (-m 2 0) (Flt.neg_finite.2 (hm 1 0)) (Flt.neg_finite.2 (hm 2 0))
      (by rw [Flt.neg_val, Flt.neg_val, neg_ne_zero, neg_ne_zero]; exact h0.symm)
    refine ⟨rfl, rfl, h3.fin _ _ (Flt.neg_finite.2 (hm 1 0)) (Flt.neg_finite.2 (hm 2 0)), a, ?_, bound ha hr⟩
    rw [Flt.neg_val, Flt.neg_val] at hi
    rw [h]; push_cast at hi ⊢
    rwa [one_mul, one_mul]
  · rw [if_pos h] at he
    rw [he, if_pos h]
    obtain ⟨a, ha, hi, hr⟩ := h3.err (m 1 0) (m 2 0) (hm 1 0) (hm 2 0) h0.symm
    refine ⟨rfl, rfl, h3.fin _ _ (hm 1 0) (hm 2 0), a, ?_, bound ha hr⟩
    rw [h]; push_cast
    rwa [neg_one_mul, neg_one_mul, neg_neg, neg_neg]

/-- The hypotheses of `C153_angles` and `C153_poles` are met in `float` and in `double`. -/
example : (1000 * binary32.u ≤ 1 ∧ 1000 * binary64.u ≤ 1) ∧
    (∃ (sn cs as : Flt binary32.fmt → Flt binary32.fmt) (at2 : Flt binary32.fmt → Flt binary32.fmt → Flt binary32.fmt),
      AccurateTrig binary32 sn cs ∧ AccurateAsin binary32 as ∧ AccurateAtan2 binary32 at2) ∧
    (∃ (sn cs as : Flt binary64.fmt → Flt binary64.fmt) (at2 : Flt binary64.fmt → Flt binary64.fmt → Flt binary64.fmt),
      AccurateTrig binary64 sn cs ∧ AccurateAsin binary64 as ∧ AccurateAtan2 binary64 at2) := by
  refine ⟨⟨by norm_num [BinPar.u, binary32], by norm_num [BinPar.u, binary64]⟩, ?_, ?_⟩
  · obtain ⟨sn, cs, h, -⟩ := FltRot.exists_accurate (P := binary32) (by decide)
    obtain ⟨as, h2⟩ := FltEu.exists_asin (P := binary32) (by decide)
    obtain ⟨at2, h3⟩ := FltEu.exists_atan2 (P := binary32) (by decide)
    exact ⟨sn, cs, as, at2, h, h2, h3⟩
  · obtain ⟨sn, cs, h, -⟩ := FltRot.exists_accurate (P := binary64) (by decide)
    obtain ⟨as, h2⟩ := FltEu.exists_asin (P := binary64) (by decide)
    obtain ⟨at2, h3⟩ := FltEu.exists_atan2 (P := binary64) (by decide)
    exact ⟨sn, cs, as, at2, h, h2, h3⟩

/-- A cyclic permutation of the axes is a rotation with entries as in `C153_angles`; here the roll is given by `(0, 1)` and the yaw by `(0, 1)`. -/
example : let m : Mat (Flt binary32.fmt) 4 4 := ![![0, 1, 0, 0], ![0, 0, 1, 0], ![1, 0, 0, 0], ![0, 0, 0, 1]]
    (∀ i j, (m i j).isFinite ∧ |(m i j).val| ≤ 2) ∧ (|(m 0 2).val| < 1) ∧ (8 * binary32.eta ≤ binary32.u * (|(m 0 0).val| + |(m 0 1).val|)) := by
  refine ⟨fun i j => ?_, ?_, ?_⟩
  · fin_cases i <;> fin_cases j <;> first
      | exact ⟨Flt.zero_finite, by show |(0 : Flt binary32.fmt).val| ≤ 2; rw [Flt.zero_val]; norm_num⟩
      | exact ⟨Flt.one_finite, by show |(1 : Flt binary32.fmt).val| ≤ 2; rw [Flt.one_val]; norm_num⟩
  · show |(0 : Flt binary32.fmt).val| < 1
    rw [Flt.zero_val]; norm_num
  · show 8 * binary32.eta ≤ binary32.u * (|(0 : Flt binary32.fmt).val| + |(1 : Flt binary32.fmt).val|)
    rw [Flt.zero_val, Flt.one_val]; norm_num [BinPar.u, BinPar.eta, binary32]

/-- A quarter turn about the y axis meets the hypotheses of `C153_poles`. -/
example : let m : Mat (Flt binary32.fmt) 4 4 := ![![0, 0, -1, 0], ![0, 1, 0, 0], ![1, 0, 0, 0], ![0, 0, 0, 1]]
    (∀ i j, (m i j).isFinite) ∧ |(m 0 2).val| = 1 ∧ ((m 1 0).val ≠ 0 ∨ (m 2 0).val ≠ 0) := by
  refine ⟨fun i j => ?_, ?_, Or.inr ?_⟩
  · fin_cases i <;> fin_cases j <;> first
      | exact Flt.zero_finite
      | exact Flt.one_finite
      | exact Flt.neg_finite.2 Flt.one_finite
  · show |(-1 : Flt binary32.fmt).val| = 1
    rw [Flt.neg_val, Flt.one_val]; norm_num
  · show (1 : Flt binary32.fmt).val ≠ 0
    rw [Flt.one_val]; norm_num

/-- If rounding errors make the entry greater than one then all three angles are NaN. -/
theorem C153_nan (h2 : AccurateAsin P as) (h3 : AccurateAtan2 P at2) (hcs : cs Flt.nan = Flt.nan) (hp : Flt P.fmt) (m : Mat (Flt P.fmt) 4 4)
    (hm : (m 0 2).isFinite) (h : 1 < |(m 0 2).val|) : toEulerAnglesG as cs at2 hp m = fun _ => Flt.nan := by
  have hc : Cmp.eq (vm.abs (m 0 2)) 1 = false := by
    obtain ⟨f1, f2⟩ := abs_flt hm
    rw [FltHull.eq_val f1 Flt.one_finite, f2, Flt.one_val]
    exact decide_eq_false h.ne'
  have e1 : (-as (m 0 2)) = Flt.nan := by rw [h2.nan _ hm h]; rfl
  have dn : ∀ a : Flt P.fmt, a / Flt.nan = Flt.nan := fun a => by cases a <;> rfl
  unfold toEulerAnglesG
  rw [hc]
  show ![at2 (m 1 2 / cs (-as (m 0 2))) (m 2 2 / cs (-as (m 0 2))), -as (m 0 2), at2 (m 0 1 / cs (-as (m 0 2))) (m 0 0 / cs (-as (m 0 2)))] = _
  rw [e1, hcs, dn, dn, dn, dn, h3.nan]
  funext i
  fin_cases i <;> rfl

end

/-- The matrix of a rotation about the y axis, given by the sine and the cosine of the angle. -/
def yRot {T : Type*} [Zero T] [One T] [Neg T] (s c : T) : Mat T 4 4 := ![![c, 0, -s, 0], ![0, 1, 0, 0], ![s, 0, c, 0], ![0, 0, 0, 1]]

/-- The entry of a product of two rotations about the y axis. -/
theorem FltEu.yRot_mul (s c s' c' : Flt P.fmt) :
    mmul (yRot s c) (yRot s' c') 0 2 = -s * c' + c * -s' := by
  have z : ∀ {a : Flt P.fmt}, a.isFinite → a * 0 = 0 := fun h => Flt.mul_zero_fin h
  show (0 : Flt P.fmt) + (-s) * c' + 0 * 0 + c * (-s') + 0 * 0 = _
  rw [z Flt.zero_finite, Flt.add_zero', Flt.add_zero', Flt.zero_add']

/-- For `float`: two rotations about the y axis by complementary angles, given to the last bit, have a product without Euler angles. -/
theorem C153_float_fails {cs as : Flt binary32.fmt → Flt binary32.fmt} {at2 : Flt binary32.fmt → Flt binary32.fmt → Flt binary32.fmt} (h2 : AccurateAsin binary32 as)
    (h3 : AccurateAtan2 binary32 at2) (hcs : cs Flt.nan = Flt.nan) :
    toEulerAnglesG as cs at2 binary32.halfPi (mmul (yRot (Flt.round (247 / 265)) (Flt.round (96 / 265))) (yRot (Flt.round (96 / 265)) (Flt.round (247 / 265)))) =
      fun _ => Flt.nan := by
  have hs : (Flt.round (247 / 265) : Flt binary32.fmt).isFinite ∧ (Flt.round (247 / 265) : Flt binary32.fmt).val = 122169 / 131072 :=
    is_round (by fl_num (-24) (15637632)) (lt_bound32 (by norm_num [abs_le]))
  have hc : (Flt.round (96 / 265) : Flt binary32.fmt).isFinite ∧ (Flt.round (96 / 265) : Flt binary32.fmt).val = 759723 / 2097152 :=
    is_round (by fl_num (-25) (12155568)) (lt_bound32 (by norm_num [abs_le]))
  have n1 : (-Flt.round (247 / 265) : Flt binary32.fmt).isFinite ∧ (-Flt.round (247 / 265) : Flt binary32.fmt).val = -122169 / 131072 :=
    ⟨Flt.neg_finite.2 hs.1, by rw [Flt.neg_val, hs.2]; norm_num⟩
  have n2 : (-Flt.round (96 / 265) : Flt binary32.fmt).isFinite ∧ (-Flt.round (96 / 265) : Flt binary32.fmt).val = -759723 / 2097152 :=
    ⟨Flt.neg_finite.2 hc.1, by rw [Flt.neg_val, hc.2]; norm_num⟩
  have m1 := is_mul (c := -7287727 / 8388608) n1 hs (by fl_num (-24) (-14575454)) (lt_bound32 (by norm_num [abs_le]))
  have m2 := is_mul (c := -8807053 / 67108864) hc n2 (by fl_num (-26) (-8807053)) (lt_bound32 (by norm_num [abs_le]))
  have a := is_add (c := -8388609 / 8388608) m1 m2 (by fl_num (-23) (-8388609)) (lt_bound32 (by norm_num [abs_le]))
  have e := FltEu.yRot_mul (P := binary32) (Flt.round (247 / 265)) (Flt.round (96 / 265)) (Flt.round (96 / 265)) (Flt.round (247 / 265))
  exact C153_nan h2 h3 hcs _ _ (by rw [e]; exact a.1) (by rw [e, a.2]; norm_num [abs_of_neg])

/-- For `double`: the same happens for the angles whose sines are 12/13 and 5/13. -/
theorem C153_double_fails {cs as : Flt binary64.fmt → Flt binary64.fmt} {at2 : Flt binary64.fmt → Flt binary64.fmt → Flt binary64.fmt} (h2 : AccurateAsin binary64 as)
    (h3 : AccurateAtan2 binary64 at2) (hcs : cs Flt.nan = Flt.nan) :
    toEulerAnglesG as cs at2 binary64.halfPi (mmul (yRot (Flt.round (12 / 13)) (Flt.round (5 / 13))) (yRot (Flt.round (5 / 13)) (Flt.round (12 / 13)))) =
      fun _ => Flt.nan := by
  have hs : (Flt.round (12 / 13) : Flt binary64.fmt).isFinite ∧ (Flt.round (12 / 13) : Flt binary64.fmt).val = 4157168886803535 / 4503599627370496 :=
    is_round (by fl_num (-53) (8314337773607070)) (lt_bound64 (by norm_num [abs_le]))
  have hc : (Flt.round (5 / 13) : Flt binary64.fmt).isFinite ∧ (Flt.round (5 / 13) : Flt binary64.fmt).val = 6928614811339225 / 18014398509481984 :=
    is_round (by fl_num (-54) (6928614811339225)) (lt_bound64 (by norm_num [abs_le]))
  have n1 : (-Flt.round (12 / 13) : Flt binary64.fmt).isFinite ∧ (-Flt.round (12 / 13) : Flt binary64.fmt).val = -4157168886803535 / 4503599627370496 :=
    ⟨Flt.neg_finite.2 hs.1, by rw [Flt.neg_val, hs.2]; norm_num⟩
  have n2 : (-Flt.round (5 / 13) : Flt binary64.fmt).isFinite ∧ (-Flt.round (5 / 13) : Flt binary64.fmt).val = -6928614811339225 / 18014398509481984 :=
    ⟨Flt.neg_finite.2 hc.1, by rw [Flt.neg_val, hc.2]; norm_num⟩
  have m1 := is_mul (c := -3837386664741725 / 4503599627370496) n1 hs (by fl_num (-53) (-7674773329483450)) (lt_bound64 (by norm_num [abs_le]))
  have m2 := is_mul (c := -5329703701030173 / 36028797018963968) hc n2 (by fl_num (-55) (-5329703701030173)) (lt_bound64 (by norm_num [abs_le]))
  have a := is_add (c := -4503599627370497 / 4503599627370496) m1 m2 (by fl_num (-52) (-4503599627370497)) (lt_bound64 (by norm_num [abs_le]))
  have e := FltEu.yRot_mul (P := binary64) (Flt.round (12 / 13)) (Flt.round (5 / 13)) (Flt.round (5 / 13)) (Flt.round (12 / 13))
  exact C153_nan h2 h3 hcs _ _ (by rw [e]; exact a.1) (by rw [e, a.2]; norm_num [abs_of_neg])

/-- There are functions as in `C153_float_fails`. -/
example : ∃ (sn cs as : Flt binary32.fmt → Flt binary32.fmt) (at2 : Flt binary32.fmt → Flt binary32.fmt → Flt binary32.fmt),
      AccurateTrig binary32 sn cs ∧ AccurateAsin binary32 as ∧ AccurateAtan2 binary32 at2 ∧ cs Flt.nan = Flt.nan := by
  classical
  obtain ⟨sn, cs, h, -⟩ := FltRot.exists_accurate (P := binary32) (by decide)
  obtain ⟨as, h2⟩ := FltEu.exists_asin (P := binary32) (by decide)
  obtain ⟨at2, h3⟩ := FltEu.exists_atan2 (P := binary32) (by decide)
  have k : ∀ x : Flt binary32.fmt, x.isFinite → (if x = Flt.nan then Flt.nan else cs x) = cs x := fun x hx => if_neg fun e => by rw [e] at hx; exact hx
  refine ⟨sn, fun x => if x = Flt.nan then Flt.nan else cs x, as, at2, ⟨h.sin_fin, fun x hx => ?_, h.sin_err, fun x hx => ?_⟩, h2, h3, if_pos rfl⟩
  · rw [k x hx]; exact h.cos_fin x hx
  · rw [k x hx]; exact h.cos_err x hx

/-- In exact arithmetic these are rotations by complementary angles, with a product whose pitch is a quarter turn. -/
theorem C153_exact : ∃ a b : ℝ, yRot (247 / 265 : ℝ) (96 / 265) = yRot (Real.sin a) (Real.cos a) ∧ yRot (96 / 265 : ℝ) (247 / 265) = yRot (Real.sin b) (Real.cos b) ∧
    toEulerAngles (mmul (yRot (247 / 265) (96 / 265)) (yRot (96 / 265) (247 / 265))) 1 = Real.pi / 2 := by
  have s : √(1 - (247 / 265 : ℝ) ^ 2) = 96 / 265 := by
    rw [show 1 - (247 / 265 : ℝ) ^ 2 = (96 / 265) ^ 2 by norm_num]; exact Real.sqrt_sq (by norm_num)
  have s' : √(1 - (96 / 265 : ℝ) ^ 2) = 247 / 265 := by
    rw [show 1 - (96 / 265 : ℝ) ^ 2 = (247 / 265) ^ 2 by norm_num]; exact Real.sqrt_sq (by norm_num)
  refine ⟨Real.arcsin (247 / 265), Real.arcsin (96 / 265), ?_, ?_, ?_⟩
  · rw [Real.sin_arcsin (by norm_num) (by norm_num), Real.cos_arcsin, s]
  · rw [Real.sin_arcsin (by norm_num) (by norm_num), Real.cos_arcsin, s']
  · have e : mmul (yRot (247 / 265 : ℝ) (96 / 265)) (yRot (96 / 265) (247 / 265)) 0 2 = -1 := by
      show (0 : ℝ) + (-(247 / 265)) * (247 / 265) + 0 * 0 + (96 / 265) * (-(96 / 265)) + 0 * 0 = -1
      norm_num
    unfold toEulerAngles
    rw [e, if_neg (by rw [vm.abs]; simp [Cmp.lt]), if_pos rfl]
    rfl

/-- The generic function, used with real numbers, is the function of the exact model. -/
theorem C153_model (m : Mat ℝ 4 4) : toEulerAnglesG Real.arcsin Real.cos atan2 (Real.pi / 2) m = toEulerAngles m := by
  unfold toEulerAnglesG toEulerAngles
  simp [Cmp.eq]

end vm
