import Verif.Lemmas.FltConst
import Verif.Lemmas.FltTransform
import Verif.Props.FltProducts
import Mathlib.Analysis.Real.Pi.Bounds
import Mathlib.Analysis.Complex.ExponentialBounds

/-! Lemmas about the conversion between degrees and radians in IEEE formats. -/

set_option linter.unusedSectionVars false
set_option linter.unusedSimpArgs false

namespace vm
open BinPar

variable {P : BinPar}

/-- A function that keeps infinities and rounds a monotone function of finite numbers is monotone. -/
theorem flt_mono {f : Flt P.fmt → Flt P.fmt} {g : ℚ → ℚ} (h1 : f Flt.ninf = Flt.ninf) (h2 : f Flt.pinf = Flt.pinf)
    (h3 : ∀ a ha, f (Flt.fin (F := P.fmt) a ha) = Flt.round (g a)) (hg : ∀ a b, a ≤ b → g a ≤ g b) {x y : Flt P.fmt}
    (h : Cmp.le x y = true) : Cmp.le (f x) (f y) = true := by
  rcases x with _ | _ | _ | ⟨a, ha⟩ <;> rcases y with _ | _ | _ | ⟨b, hb⟩
  case nan.nan | nan.ninf | nan.pinf | nan.fin | ninf.nan | pinf.nan | fin.nan => exact absurd h Bool.false_ne_true
  case ninf.ninf | ninf.pinf | pinf.pinf => simp only [h1, h2]; exact h
  case ninf.fin =>
    rw [h1, h3, le_of_keys (show IEEE.key (Flt.ninf : Flt P.fmt) = some (⊥ : Ext) from rfl) (Flt.key_round _)]
    exact decide_eq_true (@bot_le (WithBot (WithTop ℚ)) _ _ _)
  case pinf.ninf => exact absurd (of_decide_eq_true (p := (⊤ : Ext) ≤ ⊥) h) (by decide)
  case pinf.fin => exact absurd (of_decide_eq_true (p := (⊤ : Ext) ≤ Ext.ofRat b) h) (Ext.top_not_le _)
  case fin.ninf => exact absurd (of_decide_eq_true (p := Ext.ofRat a ≤ ⊥) h) (Ext.not_le_bot _)
  case fin.pinf =>
    rw [h2, h3, le_of_keys (Flt.key_round _) (show IEEE.key (Flt.pinf : Flt P.fmt) = some (⊤ : Ext) from rfl)]
    exact decide_eq_true (@le_top (WithBot (WithTop ℚ)) _ _ _)
  case fin.fin =>
    have h' : a ≤ b := by
      rw [Flt.lt_asymm_le (P := P) (a := Flt.fin a ha) (b := Flt.fin b hb) trivial trivial] at h
      exact of_decide_eq_true h
    rw [h3, h3]
    exact Flt.round_mono (hg a b h')

/-- Multiplication by a positive number is monotone, infinities included. -/
theorem mul_mono_right {x y c : Flt P.fmt} (hc : c.isFinite) (h0 : 0 < c.val) (h : Cmp.le x y = true) : Cmp.le (x * c) (y * c) = true := by
  obtain ⟨hr, hc'⟩ := Flt.eq_fin hc
  rw [hc']
  refine flt_mono (f := fun x => x * Flt.fin (F := P.fmt) c.val hr) (g := fun a => a * c.val) ?_ ?_ (fun _ _ => rfl)
    (fun a b hab => mul_le_mul_of_nonneg_right hab h0.le) h
  · show Flt.infTimes (-c.val) = _
    unfold Flt.infTimes
    rw [if_neg (by linarith), if_neg (by linarith)]
  · show Flt.infTimes c.val = _
    unfold Flt.infTimes
    rw [if_neg h0.ne', if_pos h0]

/-- Division by a positive number is monotone, infinities included. -/
theorem div_mono_right {x y c : Flt P.fmt} (hc : c.isFinite) (h0 : 0 < c.val) (h : Cmp.le x y = true) : Cmp.le (x / c) (y / c) = true := by
  obtain ⟨hr, hc'⟩ := Flt.eq_fin hc
  rw [hc']
  refine flt_mono (f := fun x => x / Flt.fin (F := P.fmt) c.val hr) (g := fun a => a / c.val) ?_ ?_ (fun a _ => ?_)
    (fun a b hab => div_le_div_of_nonneg_right hab h0.le) h
  · show (if 0 ≤ c.val then Flt.ninf else Flt.pinf : Flt P.fmt) = _
    rw [if_pos h0.le]
  · show (if 0 ≤ c.val then Flt.pinf else Flt.ninf : Flt P.fmt) = _
    rw [if_pos h0.le]
  · show (if c.val = 0 then Flt.infTimes a else Flt.round (a / c.val) : Flt P.fmt) = _
    rw [if_neg h0.ne']

/-- Division by a number other than zero commutes with negation. -/
theorem neg_div_fin {a c : Flt P.fmt} (hc : c.isFinite) (h0 : c.val ≠ 0) : -a / c = -(a / c) := by
  obtain ⟨hr, hc'⟩ := Flt.eq_fin hc
  rw [hc']
  rcases a with _ | _ | _ | ⟨a, ha⟩
  · rfl
  · show (if 0 ≤ c.val then Flt.pinf else Flt.ninf : Flt P.fmt) = -(if 0 ≤ c.val then Flt.ninf else Flt.pinf : Flt P.fmt)
    split_ifs <;> rfl
  · show (if 0 ≤ c.val then Flt.ninf else Flt.pinf : Flt P.fmt) = -(if 0 ≤ c.val then Flt.pinf else Flt.ninf : Flt P.fmt)
    split_ifs <;> rfl
  · show (if c.val = 0 then Flt.infTimes (-a) else Flt.round (-a / c.val) : Flt P.fmt) =
      -(if c.val = 0 then Flt.infTimes a else Flt.round (a / c.val) : Flt P.fmt)
    rw [if_neg h0, if_neg h0, neg_div, Flt.round_neg]

/-- What is needed of a format: `pi` is close to π. -/
structure AngleFmt (P : BinPar) : Prop where
  u : P.u ≤ 1 / 2 ^ 24
  fin : P.pi.isFinite
  fin180 : (180 : Flt P.fmt).isFinite ∧ (180 : Flt P.fmt).val = 180
  lo : 3 ≤ P.pi.val
  hi : P.pi.val ≤ 4
  err : |(P.pi.val : ℝ) - Real.pi| ≤ P.u / 2 * Real.pi

theorem pi_d20 : (3.14159265358979323846 : ℝ) < Real.pi ∧ Real.pi < 3.14159265358979323847 := ⟨Real.pi_gt_d20, Real.pi_lt_d20⟩

theorem angleFmt (hP : P = binary32 ∨ P = binary64) : AngleFmt P := by
  obtain ⟨h1, h2⟩ := pi_d20
  rcases hP with rfl | rfl
  · refine ⟨by norm_num [BinPar.u, binary32], pi32.1, nat180_32, by rw [pi32.2]; norm_num, by rw [pi32.2]; norm_num, ?_⟩
    rw [pi32.2, abs_le]
    norm_num [BinPar.u, binary32]
    constructor <;> linarith
  · refine ⟨by norm_num [BinPar.u, binary64], pi64.1, nat180_64, by rw [pi64.2]; norm_num, by rw [pi64.2]; norm_num, ?_⟩
    rw [pi64.2, abs_le]
    norm_num [BinPar.u, binary64]
    constructor <;> linarith

theorem toRadians_val (A : AngleFmt P) {d : Flt P.fmt} (h : (toRadians P.pi d).isFinite) :
    d.isFinite ∧ (toRadians P.pi d).val = P.fl (P.fl (d.val * P.pi.val) / 180) := by
  have h1 : (d * P.pi).isFinite := div_finite_left A.fin180.1 h
  have h2 := (Flt.mul_finite h1).1
  refine ⟨h2, ?_⟩
  have h3 : toRadians P.pi d = Flt.round ((d * P.pi).val / 180) := by
    show d * P.pi / 180 = _
    rw [fin_div_fin h1 A.fin180.1 (by rw [A.fin180.2]; norm_num), A.fin180.2]
  rw [h3] at h ⊢
  rw [Flt.round_val h, Flt.mul_val h1]

theorem toDegrees_val (A : AngleFmt P) {r : Flt P.fmt} (h : (toDegrees P.pi r).isFinite) :
    r.isFinite ∧ (toDegrees P.pi r).val = P.fl (P.fl (r.val * 180) / P.pi.val) := by
  have h1 : (r * 180).isFinite := div_finite_left A.fin h
  have h2 := (Flt.mul_finite h1).1
  refine ⟨h2, ?_⟩
  have h3 : toDegrees P.pi r = Flt.round ((r * 180).val / P.pi.val) := by
    show r * 180 / P.pi = _
    rw [fin_div_fin h1 A.fin (by have := A.lo; linarith)]
  rw [h3] at h ⊢
  rw [Flt.round_val h, Flt.mul_val h1, A.fin180.2]

/-- Error of the conversion to radians. -/
theorem toRadians_err (A : AngleFmt P) {d : Flt P.fmt} (h : (toRadians P.pi d).isFinite) :
    |((toRadians P.pi d).val : ℝ) - d.val * Real.pi / 180| ≤ 3 * P.u * |d.val * Real.pi / 180| + 2 * P.eta := by
  obtain ⟨-, h2⟩ := toRadians_val A h
  rw [h2]
  have e1 := P.fl_err_u (d.val * P.pi.val)
  have e2 := P.fl_err_u (P.fl (d.val * P.pi.val) / 180)
  have hpi := A.err
  have hu : (P.u : ℝ) ≤ 1 / 2 ^ 24 := by have := (Rat.cast_le (K := ℝ)).2 A.u; push_cast at this; exact this
  have hu0 : (0 : ℝ) < P.u := by exact_mod_cast P.u_pos
  have hn0 : (0 : ℝ) < P.eta := by exact_mod_cast P.eta_pos
  have e1' : |(P.fl (d.val * P.pi.val) : ℝ) - d.val * P.pi.val| ≤ P.u * |(d.val : ℝ) * P.pi.val| + P.eta := by exact_mod_cast e1
  have e2' : |(P.fl (P.fl (d.val * P.pi.val) / 180) : ℝ) - P.fl (d.val * P.pi.val) / 180| ≤ P.u * |(P.fl (d.val * P.pi.val) : ℝ) / 180| + P.eta := by
    exact_mod_cast e2
  generalize (P.fl (P.fl (d.val * P.pi.val) / 180) : ℝ) = r at *
  generalize (P.fl (d.val * P.pi.val) : ℝ) = a at *
  generalize (P.pi.val : ℝ) = q at *
  generalize (d.val : ℝ) = t at *
  generalize (P.u : ℝ) = u at *
  generalize (P.eta : ℝ) = n at *
  have hp0 := Real.pi_pos
  have e3 : |t * q - t * Real.pi| ≤ u / 2 * |t * Real.pi| := by
    rw [← mul_sub, abs_mul, abs_mul, abs_of_pos hp0]
    nlinarith [abs_nonneg t]
  have e4 : |t * q| ≤ |t * Real.pi| + u / 2 * |t * Real.pi| := by
    have := abs_sub_abs_le_abs_sub (t * q) (t * Real.pi); linarith
  have e5 : |a| ≤ |t * q| + (u * |t * q| + n) := by
    have := abs_sub_abs_le_abs_sub a (t * q); linarith
  rw [abs_div, abs_of_pos (by norm_num : (0 : ℝ) < 180)] at e2' ⊢
  have e6 : |r - t * Real.pi / 180| ≤ |r - a / 180| + (|a - t * q| + |t * q - t * Real.pi|) / 180 := by
    have h1 := abs_sub_le r (a / 180) (t * Real.pi / 180)
    have h2 : |a / 180 - t * Real.pi / 180| = |a - t * Real.pi| / 180 := by
      rw [← sub_div, abs_div, abs_of_pos (by norm_num : (0 : ℝ) < 180)]
    have h3 := abs_sub_le a (t * q) (t * Real.pi)
    rw [h2] at h1
    linarith
  have hx := abs_nonneg (t * Real.pi)
  generalize |t * Real.pi| = x at *
  have hy := abs_nonneg (t * q)
  generalize |t * q| = y at *
  have m1 : u * x ≤ 1 / 2 ^ 24 * x := mul_le_mul_of_nonneg_right hu hx
  have m2 : u * (u * x) ≤ u * (1 / 2 ^ 24 * x) := mul_le_mul_of_nonneg_left m1 hu0.le
  have m3 : u * y ≤ u * (x + u / 2 * x) := mul_le_mul_of_nonneg_left e4 hu0.le
  have m4 : u * |a| ≤ u * (y + (u * y + n)) := mul_le_mul_of_nonneg_left e5 hu0.le
  have m5 : u * (u * y) ≤ 1 / 2 ^ 24 * (u * y) := mul_le_mul_of_nonneg_right hu (by positivity)
  have m6 : u * n ≤ 1 / 2 ^ 24 * n := mul_le_mul_of_nonneg_right hu hn0.le
  nlinarith [mul_nonneg hu0.le hx]

/-- Error of the conversion to degrees. -/
theorem toDegrees_err (A : AngleFmt P) {r : Flt P.fmt} (h : (toDegrees P.pi r).isFinite) :
    |((toDegrees P.pi r).val : ℝ) - r.val * 180 / Real.pi| ≤ 3 * P.u * |r.val * 180 / Real.pi| + 2 * P.eta := by
  obtain ⟨-, h2⟩ := toDegrees_val A h
  rw [h2]
  have e1 := P.fl_err_u (r.val * 180)
  have e2 := P.fl_err_u (P.fl (r.val * 180) / P.pi.val)
  have hpi := A.err
  have hu : (P.u : ℝ) ≤ 1 / 2 ^ 24 := by have := (Rat.cast_le (K := ℝ)).2 A.u; push_cast at this; exact this
  have hu0 : (0 : ℝ) < P.u := by exact_mod_cast P.u_pos
  have hn0 : (0 : ℝ) < P.eta := by exact_mod_cast P.eta_pos
  have hq : (3 : ℝ) ≤ P.pi.val := by exact_mod_cast A.lo
  have e1' : |(P.fl (r.val * 180) : ℝ) - r.val * 180| ≤ P.u * |(r.val : ℝ) * 180| + P.eta := by exact_mod_cast e1
  have e2' : |(P.fl (P.fl (r.val * 180) / P.pi.val) : ℝ) - P.fl (r.val * 180) / P.pi.val| ≤ P.u * |(P.fl (r.val * 180) : ℝ) / P.pi.val| + P.eta := by
    exact_mod_cast e2
  generalize (P.fl (P.fl (r.val * 180) / P.pi.val) : ℝ) = s at *
  generalize (P.fl (r.val * 180) : ℝ) = a at *
  generalize (P.pi.val : ℝ) = q at *
  generalize (r.val : ℝ) * 180 = t at *
  generalize (P.u : ℝ) = u at *
  generalize (P.eta : ℝ) = n at *
  have hp0 := Real.pi_pos
  have hq0 : (0 : ℝ) < q := by linarith
  -- `t / q` against `t / π`
  have e3 : |t / q - t / Real.pi| ≤ 11 / 20 * u * |t / Real.pi| := by
    have h1 : t / q - t / Real.pi = t / Real.pi * ((Real.pi - q) / q) := by field_simp
    rw [h1, abs_mul, mul_comm]
    refine mul_le_mul_of_nonneg_right ?_ (abs_nonneg _)
    rw [abs_div, abs_of_pos hq0, div_le_iff₀ hq0, abs_sub_comm]
    have h4 : Real.pi * (1 - u / 2) ≤ q := by have := (abs_le.1 hpi).1; linarith
    have h5 := mul_le_mul_of_nonneg_left h4 hu0.le
    have h6 : u * (u * Real.pi) ≤ 1 / 2 ^ 24 * (u * Real.pi) := mul_le_mul_of_nonneg_right hu (by positivity)
    have h7 : 0 < u * Real.pi := by positivity
    linarith
  have e4 : |t / q| ≤ |t / Real.pi| + 11 / 20 * u * |t / Real.pi| := by
    have := abs_sub_abs_le_abs_sub (t / q) (t / Real.pi); linarith
  have e1'' : |a / q - t / q| ≤ u * |t / q| + n / 3 := by
    rw [← sub_div, abs_div, abs_div, abs_of_pos hq0, div_le_iff₀ hq0]
    have : n / 3 * q ≥ n := by nlinarith
    have h5 : u * (|t| / q) * q = u * |t| := by field_simp
    nlinarith
  have e5 : |a / q| ≤ |t / q| + (u * |t / q| + n / 3) := by
    have := abs_sub_abs_le_abs_sub (a / q) (t / q); linarith
  have e6 : |s - t / Real.pi| ≤ |s - a / q| + (|a / q - t / q| + |t / q - t / Real.pi|) := by
    have h1 := abs_sub_le s (a / q) (t / Real.pi)
    have h3 := abs_sub_le (a / q) (t / q) (t / Real.pi)
    linarith
  have hx := abs_nonneg (t / Real.pi)
  generalize |t / Real.pi| = x at *
  have hy := abs_nonneg (t / q)
  generalize |t / q| = y at *
  have m1 : u * x ≤ 1 / 2 ^ 24 * x := mul_le_mul_of_nonneg_right hu hx
  have m2 : u * (u * x) ≤ u * (1 / 2 ^ 24 * x) := mul_le_mul_of_nonneg_left m1 hu0.le
  have m3 : u * y ≤ u * (x + 11 / 20 * u * x) := mul_le_mul_of_nonneg_left e4 hu0.le
  have m4 : u * |a / q| ≤ u * (y + (u * y + n / 3)) := mul_le_mul_of_nonneg_left e5 hu0.le
  have m5 : u * (u * y) ≤ 1 / 2 ^ 24 * (u * y) := mul_le_mul_of_nonneg_right hu (by positivity)
  have m6 : u * n ≤ 1 / 2 ^ 24 * n := mul_le_mul_of_nonneg_right hu hn0.le
  nlinarith [mul_nonneg hu0.le hx]

/-- Error of the conversion to radians and back. -/
theorem roundTrip_err (A : AngleFmt P) {d : Flt P.fmt} (h : (toDegrees P.pi (toRadians P.pi d)).isFinite) :
    |(toDegrees P.pi (toRadians P.pi d)).val - d.val| ≤ 5 * P.u * |d.val| + 62 * P.eta := by
  obtain ⟨h1, h2⟩ := toDegrees_val A h
  obtain ⟨h3, h4⟩ := toRadians_val A h1
  rw [h2, h4]
  have e1 := P.fl_err_u (d.val * P.pi.val)
  have e2 := P.fl_err_u (P.fl (d.val * P.pi.val) / 180)
  have e3 := P.fl_err_u (P.fl (P.fl (d.val * P.pi.val) / 180) * 180)
  have e4 := P.fl_err_u (P.fl (P.fl (P.fl (d.val * P.pi.val) / 180) * 180) / P.pi.val)
  have hu := A.u
  have hu0 := P.u_pos
  have hn0 := P.eta_pos
  have hq := A.lo
  generalize P.fl (P.fl (P.fl (P.fl (d.val * P.pi.val) / 180) * 180) / P.pi.val) = s at *
  generalize P.fl (P.fl (P.fl (d.val * P.pi.val) / 180) * 180) = b at *
  generalize P.fl (P.fl (d.val * P.pi.val) / 180) = r at *
  generalize P.fl (d.val * P.pi.val) = a at *
  generalize P.pi.val = q at *
  generalize d.val = t at *
  generalize P.u = u at *
  generalize P.eta = n at *
  have hq0 : 0 < q := by linarith
  -- everything in units of `1 / q`
  have k1 : |a - t * q| ≤ u * (|t| * q) + n := by rwa [abs_mul, abs_of_pos hq0] at e1
  have k2 : |r * 180 - a| ≤ u * |a| + 180 * n := by
    have : r * 180 - a = (r - a / 180) * 180 := by ring
    rw [this, abs_mul, abs_of_pos (by norm_num : (0 : ℚ) < 180)]
    rw [abs_div, abs_of_pos (by norm_num : (0 : ℚ) < 180)] at e2
    linarith
  have k4 : |s * q - b| ≤ u * |b| + n * q := by
    have : s * q - b = (s - b / q) * q := by field_simp
    rw [this, abs_mul, abs_of_pos hq0]
    rw [abs_div, abs_of_pos hq0] at e4
    have h5 : u * (|b| / q) * q = u * |b| := by field_simp
    nlinarith
  have a1 : |a| ≤ |t| * q + (u * (|t| * q) + n) := by
    have := abs_sub_abs_le_abs_sub a (t * q)
    rw [abs_mul t q, abs_of_pos hq0] at this; linarith
  have a2 : |r * 180| ≤ |a| + (u * |a| + 180 * n) := by
    have := abs_sub_abs_le_abs_sub (r * 180) a; linarith
  have a3 : |b| ≤ |r * 180| + (u * |r * 180| + n) := by
    have := abs_sub_abs_le_abs_sub b (r * 180); linarith
  have tot : |s * q - t * q| ≤ |s * q - b| + (|b - r * 180| + (|r * 180 - a| + |a - t * q|)) := by
    have h1 := abs_sub_le (s * q) b (t * q)
    have h2 := abs_sub_le b (r * 180) (t * q)
    have h3 := abs_sub_le (r * 180) a (t * q)
    linarith
  have hD : 0 ≤ |t| * q := by positivity
  have fin : |s * q - t * q| ≤ (5 * u * |t| + 62 * n) * q := by
    have e : (5 * u * |t| + 62 * n) * q = 5 * (u * (|t| * q)) + 62 * n * q := by ring
    rw [e]
    have nq : 3 * n ≤ n * q := by nlinarith
    generalize |t| * q = D at *
    have ha := abs_nonneg a
    have hr := abs_nonneg (r * 180)
    generalize |a| = X at *
    generalize |r * 180| = Y at *
    generalize |b| = Z at *
    have uD : u * (u * D) ≤ 1 / 2 ^ 24 * (u * D) := mul_le_mul_of_nonneg_right hu (by positivity)
    have un : u * n ≤ 1 / 2 ^ 24 * n := mul_le_mul_of_nonneg_right hu hn0.le
    have uX : u * X ≤ u * (D + (u * D + n)) := mul_le_mul_of_nonneg_left a1 hu0.le
    have uX' : u * X ≤ (1 + 1 / 2 ^ 24) * (u * D) + 1 / 2 ^ 24 * n := by nlinarith
    have uuX : u * (u * X) ≤ 1 / 2 ^ 24 * (u * X) := mul_le_mul_of_nonneg_right hu (by positivity)
    have uY : u * Y ≤ u * (X + (u * X + 180 * n)) := mul_le_mul_of_nonneg_left a2 hu0.le
    have uY' : u * Y ≤ (1 + 1 / 2 ^ 24) * (u * X) + 180 / 2 ^ 24 * n := by nlinarith
    have uuY : u * (u * Y) ≤ 1 / 2 ^ 24 * (u * Y) := mul_le_mul_of_nonneg_right hu (by positivity)
    have uZ : u * Z ≤ u * (Y + (u * Y + n)) := mul_le_mul_of_nonneg_left a3 hu0.le
    have uZ' : u * Z ≤ (1 + 1 / 2 ^ 24) * (u * Y) + 1 / 2 ^ 24 * n := by nlinarith
    have uD0 : 0 ≤ u * D := by positivity
    linarith
  rw [← sub_mul, abs_mul, abs_of_pos hq0] at fin
  exact le_of_mul_le_mul_right fin hq0

end vm
