import Verif.Props.PointInPolygon
import Verif.Props.FltRayPlane
import Verif.Lemmas.FltConst

/-! Lemmas about points in polygons in IEEE arithmetic. -/

set_option linter.unusedSectionVars false
set_option linter.unusedSimpArgs false

namespace vm
open BinPar

section err
variable {u eta az X0 X1 Y0 Y1 x0 x1 y0 y1 D E N Q x : ℚ}

theorem sub_err_of {a b A B d s : ℚ} (hu0 : 0 < u) (ha : |a - A| ≤ u * |A|) (hb : |b - B| ≤ u * |B|) (hs : |A| + |B| = s)
    (hd : |d - (b - a)| ≤ u * |b - a|) : |d - (B - A)| ≤ (2 * u + u ^ 2) * s ∧ |b - a| ≤ (1 + u) * s ∧ |d| ≤ (1 + u) ^ 2 * s := by
  have h1 : |(b - a) - (B - A)| ≤ u * s := by
    have : (b - a) - (B - A) = (b - B) - (a - A) := by ring
    rw [this]
    refine (abs_sub _ _).trans ?_
    rw [← hs]; linarith
  have h2 : |B - A| ≤ s := by rw [← hs, add_comm]; exact abs_sub _ _
  have h3 : |b - a| ≤ (1 + u) * s := by
    have := abs_sub_abs_le_abs_sub (b - a) (B - A); linarith
  have h4 := mul_le_mul_of_nonneg_left h3 hu0.le
  have h5 : |d - (B - A)| ≤ (2 * u + u ^ 2) * s := by
    have := abs_sub_le d (b - a) (B - A)
    linarith
  refine ⟨h5, h3, ?_⟩
  have := abs_sub_abs_le_abs_sub d (b - a)
  linarith

/-- Error of the computed abscissa of the point where an edge crosses the axis. -/
theorem xcross_err (hu0 : 0 < u) (hu : u ≤ 1 / 1024) (haz : 0 < az) (haz1 : az ≤ 1) (he0 : 0 < eta) (he : eta ≤ u * az ^ 2)
    (hY0 : az ≤ |Y0|) (hY1 : az ≤ |Y1|) (hY : Y0 * Y1 < 0) (hx0 : |x0 - X0| ≤ u * |X0|) (hx1 : |x1 - X1| ≤ u * |X1|)
    (hy0 : |y0 - Y0| ≤ u * |Y0|) (hy1 : |y1 - Y1| ≤ u * |Y1|) (hD : |D - (x1 - x0)| ≤ u * |x1 - x0|) (hE : |E - (y1 - y0)| ≤ u * |y1 - y0|)
    (hN : |N - -y0 * D| ≤ u * |-y0 * D| + eta) (hQ : |Q - N / E| ≤ u * |N / E| + eta) (hx : |x - (Q + x0)| ≤ u * |Q + x0|) :
    E ≠ 0 ∧ |N / E| ≤ 2 * (|X0| + |X1| + az) ∧ |Q + x0| ≤ 4 * (|X0| + |X1| + az) ∧
    |x - (-Y0 * (X1 - X0) / (Y1 - Y0) + X0)| ≤ 11 * u * (|X0| + |X1| + az) := by
  obtain ⟨d1, -, d2⟩ := sub_err_of hu0 hx0 hx1 rfl hD
  obtain ⟨e1, -, -⟩ := sub_err_of hu0 hy0 hy1 rfl hE
  have hh : |Y1 - Y0| = |Y0| + |Y1| := by
    rcases mul_neg_iff.1 hY with ⟨h1, h2⟩ | ⟨h1, h2⟩
    · rw [abs_of_pos h1, abs_of_neg h2, abs_of_neg (by linarith)]; ring
    · rw [abs_of_neg h1, abs_of_pos h2, abs_of_pos (by linarith)]; ring
  set s := |X0| + |X1| with hs
  set h := |Y0| + |Y1| with hhd
  have s0 : 0 ≤ s := by positivity
  have h2az : 2 * az ≤ h := by linarith
  have h0 : 0 < h := by linarith
  have hsx : |X1 - X0| ≤ s := by rw [hs, add_comm]; exact abs_sub _ _
  have a0 : 0 < |Y0| := by linarith
  have ah : |Y0| ≤ h := by have := abs_nonneg Y1; linarith
  -- the denominator
  have u2 : u ^ 2 ≤ 1 / 1024 * u := by rw [pow_two]; exact mul_le_mul_of_nonneg_right hu hu0.le
  have u3 : u ^ 3 ≤ 1 / 1024 * u := by
    have t : u ^ 3 ≤ u ^ 2 * (1 / 1024) := by rw [pow_succ]; exact mul_le_mul_of_nonneg_left hu (by positivity)
    linarith
  have Elo : 997 / 1000 * h ≤ |E| := by
    have t1 := abs_sub_abs_le_abs_sub (Y1 - Y0) E
    rw [hh, abs_sub_comm] at t1
    have t2 : (2 * u + u ^ 2) * h ≤ 3 / 1000 * h := mul_le_mul_of_nonneg_right (by linarith) h0.le
    linarith
  have E0 : 0 < |E| := lt_of_lt_of_le (by positivity) Elo
  have Ene : E ≠ 0 := abs_pos.1 E0
  -- the numerator
  have y0b : |y0| ≤ (1 + u) * |Y0| := by
    have := abs_sub_abs_le_abs_sub y0 Y0; linarith
  have n1 : |-y0 * D - -Y0 * (X1 - X0)| ≤ (4 * u - u / 2) * (|Y0| * s) := by
    have t : -y0 * D - -Y0 * (X1 - X0) = -((y0 - Y0) * D) - Y0 * (D - (X1 - X0)) := by ring
    rw [t]
    refine (abs_sub _ _).trans ?_
    rw [abs_neg, abs_mul, abs_mul]
    have t1 : |y0 - Y0| * |D| ≤ (u * |Y0|) * ((1 + u) ^ 2 * s) := mul_le_mul hy0 d2 (abs_nonneg _) (by positivity)
    have t2 : |Y0| * |D - (X1 - X0)| ≤ |Y0| * ((2 * u + u ^ 2) * s) := mul_le_mul_of_nonneg_left d1 (abs_nonneg _)
    have t3 : u * (1 + u) ^ 2 + (2 * u + u ^ 2) ≤ 4 * u - u / 2 := by
      have : u * (1 + u) ^ 2 + (2 * u + u ^ 2) = 3 * u + 3 * u ^ 2 + u ^ 3 := by ring
      linarith
    have t4 := mul_le_mul_of_nonneg_right t3 (by positivity : 0 ≤ |Y0| * s)
    linarith
  have n2 : |-y0 * D| ≤ 101 / 100 * (|Y0| * s) := by
    rw [abs_mul, abs_neg]
    have t1 : |y0| * |D| ≤ ((1 + u) * |Y0|) * ((1 + u) ^ 2 * s) := mul_le_mul y0b d2 (abs_nonneg _) (by positivity)
    have t3 : (1 + u) * (1 + u) ^ 2 ≤ 101 / 100 := by
      have : (1 + u) * (1 + u) ^ 2 = 1 + 3 * u + 3 * u ^ 2 + u ^ 3 := by ring
      linarith
    have t4 := mul_le_mul_of_nonneg_right t3 (by positivity : 0 ≤ |Y0| * s)
    linarith
  have n3 : |N - -Y0 * (X1 - X0)| ≤ (5 * u - 49 / 100 * u) * (|Y0| * s) + eta := by
    have := abs_sub_le N (-y0 * D) (-Y0 * (X1 - X0))
    have t := mul_le_mul_of_nonneg_left n2 hu0.le
    linarith
  -- the quotient
  have q1 : |N / E - -Y0 * (X1 - X0) / (Y1 - Y0)| ≤ 7 * u * s + 51 / 100 * u * az := by
    have hne : Y1 - Y0 ≠ 0 := by rw [← abs_pos, hh]; exact h0
    have t : N / E - -Y0 * (X1 - X0) / (Y1 - Y0) = ((N - -Y0 * (X1 - X0)) + (-Y0 * (X1 - X0)) / (Y1 - Y0) * ((Y1 - Y0) - E)) / E := by
      field_simp; ring
    rw [t, abs_div, div_le_iff₀ E0]
    have t1 : |(-Y0 * (X1 - X0)) / (Y1 - Y0) * ((Y1 - Y0) - E)| ≤ (2 * u + u ^ 2) * (|Y0| * s) := by
      rw [abs_mul, abs_div, hh, abs_sub_comm, abs_mul, abs_neg]
      have t2 : |Y0| * |X1 - X0| / h ≤ |Y0| * s / h := div_le_div_of_nonneg_right (mul_le_mul_of_nonneg_left hsx (abs_nonneg _)) h0.le
      have t3 := mul_le_mul t2 e1 (abs_nonneg _) (by positivity)
      have t4 : |Y0| * s / h * ((2 * u + u ^ 2) * h) = (2 * u + u ^ 2) * (|Y0| * s) := by field_simp
      linarith
    have t5 := abs_add_le (N - -Y0 * (X1 - X0)) ((-Y0 * (X1 - X0)) / (Y1 - Y0) * ((Y1 - Y0) - E))
    have t6 : (5 * u - 49 / 100 * u) + (2 * u + u ^ 2) ≤ 66 / 10 * u := by linarith
    have t7 := mul_le_mul_of_nonneg_right t6 (by positivity : 0 ≤ |Y0| * s)
    have t8 : 66 / 10 * u * (|Y0| * s) ≤ 66 / 10 * u * (h * s) := mul_le_mul_of_nonneg_left (mul_le_mul_of_nonneg_right ah s0) (by positivity)
    have t9 : (7 * u * s) * (997 / 1000 * h) ≤ (7 * u * s) * |E| := mul_le_mul_of_nonneg_left Elo (by positivity)
    have t10 : (51 / 100 * u * az) * (997 / 1000 * h) ≤ (51 / 100 * u * az) * |E| := mul_le_mul_of_nonneg_left Elo (by positivity)
    have t11 : u * az ^ 2 ≤ (51 / 100 * u * az) * (997 / 1000 * h) := by
      have : (51 / 100 * u * az) * (997 / 1000 * (2 * az)) ≤ (51 / 100 * u * az) * (997 / 1000 * h) :=
        mul_le_mul_of_nonneg_left (by linarith) (by positivity)
      have t12 : 0 < u * az ^ 2 := by positivity
      linarith
    have t13 : 0 ≤ u * (h * s) := by positivity
    linarith
  have he' : eta ≤ u * az := he.trans (mul_le_mul_of_nonneg_left (by rw [pow_two]; exact mul_le_of_le_one_left haz.le haz1) hu0.le)
  -- the exact quotient is at most the width
  have T1 : |-Y0 * (X1 - X0) / (Y1 - Y0)| ≤ s := by
    rw [abs_div, hh, abs_mul, abs_neg, div_le_iff₀ h0, mul_comm s]
    exact mul_le_mul ah hsx (abs_nonneg _) h0.le
  have us : u * s ≤ 1 / 1024 * s := mul_le_mul_of_nonneg_right hu s0
  have uaz : u * az ≤ 1 / 1024 * az := mul_le_mul_of_nonneg_right hu haz.le
  have q2 : |N / E| ≤ 101 / 100 * s + 1 / 1000 * az := by
    have := abs_sub_abs_le_abs_sub (N / E) (-Y0 * (X1 - X0) / (Y1 - Y0))
    linarith
  have q3 := mul_le_mul_of_nonneg_left q2 hu0.le
  have q4 : |Q - -Y0 * (X1 - X0) / (Y1 - Y0)| ≤ (8 + 1 / 50) * u * s + 152 / 100 * u * az := by
    have := abs_sub_le Q (N / E) (-Y0 * (X1 - X0) / (Y1 - Y0))
    have t : 0 ≤ u * s := by positivity
    have t' : 0 ≤ u * az := by positivity
    linarith
  have X0s : |X0| ≤ s := by have := abs_nonneg X1; linarith
  have uX := mul_le_mul_of_nonneg_left X0s hu0.le
  have r1 : |Q + x0 - (-Y0 * (X1 - X0) / (Y1 - Y0) + X0)| ≤ 8 * u * s + u * |X0| + 1 / 50 * u * s + 152 / 100 * u * az := by
    have : Q + x0 - (-Y0 * (X1 - X0) / (Y1 - Y0) + X0) = (Q - -Y0 * (X1 - X0) / (Y1 - Y0)) + (x0 - X0) := by ring
    rw [this]
    have := abs_add_le (Q - -Y0 * (X1 - X0) / (Y1 - Y0)) (x0 - X0)
    linarith
  -- the crossing point is between the end points
  have C1 : |-Y0 * (X1 - X0) / (Y1 - Y0) + X0| ≤ s := by
    have hne : Y1 - Y0 ≠ 0 := by rw [← abs_pos, hh]; exact h0
    have t : -Y0 * (X1 - X0) / (Y1 - Y0) + X0 = (Y1 * X0 - Y0 * X1) / (Y1 - Y0) := by field_simp; ring
    rw [t, abs_div, hh, div_le_iff₀ h0]
    refine (abs_sub _ _).trans ?_
    rw [abs_mul, abs_mul]
    have p1 : |Y1| * |X0| ≤ h * |X0| := mul_le_mul_of_nonneg_right (by linarith [abs_nonneg Y0]) (abs_nonneg _)
    have p2 : |Y0| * |X1| ≤ h * |X1| := mul_le_mul_of_nonneg_right ah (abs_nonneg _)
    calc |Y1| * |X0| + |Y0| * |X1| ≤ h * |X0| + h * |X1| := add_le_add p1 p2
      _ = s * h := by rw [hs]; ring
  have r2 : |Q + x0| ≤ 102 / 100 * s + 1 / 500 * az := by
    have := abs_sub_abs_le_abs_sub (Q + x0) (-Y0 * (X1 - X0) / (Y1 - Y0) + X0)
    linarith
  have r3 := mul_le_mul_of_nonneg_left r2 hu0.le
  refine ⟨Ene, by linarith, by linarith, ?_⟩
  have := abs_sub_le x (Q + x0) (-Y0 * (X1 - X0) / (Y1 - Y0) + X0)
  have t : 0 ≤ u * s := by positivity
  have t' : 0 ≤ u * az := by positivity
  linarith

end err

variable {P : BinPar}

theorem is_sub {x y : Flt P.fmt} {a b c : ℚ} (hx : x.isFinite ∧ x.val = a) (hy : y.isFinite ∧ y.val = b) (h : P.fl (a - b) = c)
    (hc : |c| < P.bound) : (x - y).isFinite ∧ (x - y).val = c := by
  rw [Flt.sub_eq hx.1 hy.1, hx.2, hy.2]
  exact is_round h hc

theorem is_add {x y : Flt P.fmt} {a b c : ℚ} (hx : x.isFinite ∧ x.val = a) (hy : y.isFinite ∧ y.val = b) (h : P.fl (a + b) = c)
    (hc : |c| < P.bound) : (x + y).isFinite ∧ (x + y).val = c := by
  rw [Flt.add_eq hx.1 hy.1, hx.2, hy.2]
  exact is_round h hc

theorem sign_of_err {u x X : ℚ} (hu : u < 1) (h : |x - X| ≤ u * |X|) : (0 < x ↔ 0 < X) ∧ (x < 0 ↔ X < 0) := by
  have h1 := abs_le.1 h
  rcases lt_trichotomy X 0 with hX | hX | hX
  · rw [abs_of_neg hX] at h1
    have : u * -X < 1 * -X := mul_lt_mul_of_pos_right hu (by linarith)
    exact ⟨⟨fun _ => by linarith, fun _ => by linarith⟩, ⟨fun _ => hX, fun _ => by linarith⟩⟩
  · rw [hX, abs_zero, mul_zero] at h1
    have : x = 0 := by linarith
    rw [this, hX]; exact ⟨Iff.rfl, Iff.rfl⟩
  · rw [abs_of_pos hX] at h1
    have : u * X < 1 * X := mul_lt_mul_of_pos_right hu hX
    exact ⟨⟨fun _ => hX, fun _ => by linarith⟩, ⟨fun _ => by linarith, fun _ => by linarith⟩⟩

theorem fl_lt_bound {q : ℚ} (h : 2 * |q| + 1 < P.bound) : |P.fl q| < P.bound := by
  have h1 := P.fl_err_u q
  have h2 := P.u_le
  have h3 : P.eta ≤ 1 := by
    unfold BinPar.eta
    calc (2 : ℚ) ^ (P.qmin - 1) ≤ 2 ^ (0 : ℤ) := zpow_le_zpow_right₀ (by norm_num) (by have := P.hmin; have := P.hp; omega)
      _ = 1 := by norm_num
  have h4 := abs_sub_abs_le_abs_sub (P.fl q) q
  have h5 : P.u * |q| ≤ 1 / 8 * |q| := mul_le_mul_of_nonneg_right h2 (abs_nonneg q)
  linarith [abs_nonneg q]

/-- What the number `x` of the format is for a difference `w` of two numbers of the format. -/
def IsDiff (x : Flt P.fmt) (w : ℚ) : Prop := x.isFinite ∧ x.val = P.fl w ∧ |P.fl w - w| ≤ P.u * |w|

/-- What an edge contributes, in terms of the exact differences of the vertices and the point. -/
theorem handleF_spec (hu : P.u ≤ 1 / 1024) {az : Flt P.fmt} (haz : az.isFinite) (h0 : 0 < az.val) (h1 : az.val ≤ 1)
    (he : P.eta ≤ P.u * az.val ^ 2) {v0 v1 : Vec (Flt P.fmt) 3} {w0 w1 : Vec ℚ 3} (fx0 : IsDiff (v0 0) (w0 0)) (fx1 : IsDiff (v1 0) (w1 0))
    (fy0 : IsDiff (v0 1) (w0 1)) (fy1 : IsDiff (v1 1) (w1 1)) {R : ℚ} (hR : 1 ≤ R) (hRb : 32 * R ^ 2 < P.bound)
    (bx0 : |w0 0| ≤ R) (bx1 : |w1 0| ≤ R) (by0 : |w0 1| ≤ R) (by1 : |w1 1| ≤ R)
    (hy0 : (1 + 2 * P.u) * az.val ≤ |w0 1|) (hy1 : (1 + 2 * P.u) * az.val ≤ |w1 1|)
    (hm : 11 * P.u * (|w0 0| + |w1 0| + az.val) ≤ az.val) :
    (¬ Crosses w0 w1 → handlePolygonEdgeIntersection az v0 v1 = 0) ∧
    (Crosses w0 w1 →
      (handlePolygonEdgeIntersection az v0 v1 = -1 ∧ |xcross w0 w1| ≤ az.val + 11 * P.u * (|w0 0| + |w1 0| + az.val)) ∨
      (handlePolygonEdgeIntersection az v0 v1 = 1 ∧ 0 < xcross w0 w1) ∨
      (handlePolygonEdgeIntersection az v0 v1 = 0 ∧ xcross w0 w1 < 0)) := by
  have hu0 := P.u_pos
  have he0 := P.eta_pos
  have hu1 : P.u < 1 := by linarith
  obtain ⟨fx0f, fx0v, fx0e⟩ := fx0
  obtain ⟨fx1f, fx1v, fx1e⟩ := fx1
  obtain ⟨fy0f, fy0v, fy0e⟩ := fy0
  obtain ⟨fy1f, fy1v, fy1e⟩ := fy1
  obtain ⟨sx0p, sx0n⟩ := sign_of_err hu1 fx0e
  obtain ⟨sx1p, sx1n⟩ := sign_of_err hu1 fx1e
  obtain ⟨sy0p, sy0n⟩ := sign_of_err hu1 fy0e
  obtain ⟨sy1p, sy1n⟩ := sign_of_err hu1 fy1e
  have hbig : ∀ {w : ℚ}, (1 + 2 * P.u) * az.val ≤ |w| → |P.fl w - w| ≤ P.u * |w| → az.val < |P.fl w| := by
    intro w hw hf
    have t1 := abs_sub_abs_le_abs_sub w (P.fl w)
    rw [abs_sub_comm] at t1
    have t2 : (1 - P.u) * ((1 + 2 * P.u) * az.val) ≤ (1 - P.u) * |w| := mul_le_mul_of_nonneg_left hw (by linarith)
    have t3 : 0 < P.u * az.val := by positivity
    have t4 : P.u * (P.u * az.val) ≤ 1 / 1024 * (P.u * az.val) := mul_le_mul_of_nonneg_right hu t3.le
    linarith
  have by0' := hbig hy0 fy0e
  have by1' := hbig hy1 fy1e
  have z0 : isZero (v0 1) az = false := by
    rw [isZero_flt fy0f haz h0.le, fy0v]; exact decide_eq_false (not_le.2 by0')
  have z1 : isZero (v1 1) az = false := by
    rw [isZero_flt fy1f haz h0.le, fy1v]; exact decide_eq_false (not_le.2 by1')
  have zv : visZero v0 az = false := by
    unfold visZero
    rw [Bool.eq_false_iff]
    intro h
    have := (List.all_eq_true.1 h) 1 (List.mem_finRange _)
    rw [z0] at this; exact absurd this Bool.false_ne_true
  have lp : ∀ {x : Flt P.fmt} {w : ℚ}, x.isFinite → x.val = P.fl w → (0 < P.fl w ↔ 0 < w) → Cmp.lt 0 x = decide (0 < w) := by
    intro x w hf hv hs
    rw [Flt.lt_val Flt.zero_finite hf, Flt.zero_val, hv]
    exact decide_eq_decide.2 hs
  have ln : ∀ {x : Flt P.fmt} {w : ℚ}, x.isFinite → x.val = P.fl w → (P.fl w < 0 ↔ w < 0) → Cmp.lt x 0 = decide (w < 0) := by
    intro x w hf hv hs
    rw [Flt.lt_val hf Flt.zero_finite, Flt.zero_val, hv]
    exact decide_eq_decide.2 hs
  have y0ne : w0 1 ≠ 0 := by
    intro h; rw [h, abs_zero] at hy0; have : 0 < (1 + 2 * P.u) * az.val := by positivity
    linarith
  have y1ne : w1 1 ≠ 0 := by
    intro h; rw [h, abs_zero] at hy1; have : 0 < (1 + 2 * P.u) * az.val := by positivity
    linarith
  unfold handlePolygonEdgeIntersection
  rw [zv, z0, z1, lp fy0f fy0v sy0p, lp fy1f fy1v sy1p, ln fy0f fy0v sy0n, ln fy1f fy1v sy1n,
    lp fx0f fx0v sx0p, lp fx1f fx1v sx1p, ln fx0f fx0v sx0n, ln fx1f fx1v sx1n]
  simp only [Bool.false_eq_true, if_false, Bool.false_and, Bool.false_or, Bool.or_eq_true, Bool.and_eq_true, decide_eq_true_eq]
  constructor
  · intro hc
    rw [if_pos]
    rcases lt_or_gt_of_ne y0ne with a | a <;> rcases lt_or_gt_of_ne y1ne with b | b
    · exact Or.inr ⟨a, b⟩
    · exact absurd (Or.inl ⟨a, b⟩) hc
    · exact absurd (Or.inr ⟨b, a⟩) hc
    · exact Or.inl ⟨a, b⟩
  intro hc
  have hc' := hc
  have hx := xcross_eq hc
  have hY : w0 1 * w1 1 < 0 := by
    rcases hc with ⟨a, b⟩ | ⟨a, b⟩
    · exact mul_neg_of_neg_of_pos a b
    · exact mul_neg_of_pos_of_neg b a
  rw [if_neg (by
    rintro (⟨a, b⟩ | ⟨a, b⟩)
    · exact absurd (mul_pos a b) (not_lt.2 hY.le)
    · exact absurd (mul_pos_of_neg_of_neg a b) (not_lt.2 hY.le))]
  -- sign of the crossing when both end points are on one side
  have hden : (w1 1 - w0 1) * (w1 1) > 0 ∧ (w1 1 - w0 1) * (-(w0 1)) > 0 := by
    rcases hc' with ⟨a, b⟩ | ⟨a, b⟩
    · exact ⟨mul_pos (by linarith) b, mul_pos (by linarith) (by linarith)⟩
    · exact ⟨mul_pos_of_neg_of_neg (by linarith) a, mul_pos_of_neg_of_neg (by linarith) (by linarith)⟩
  have hsq : 0 < (w1 1 - w0 1) ^ 2 := by have := crosses_ne hc'; positivity
  have hxc : xcross w0 w1 * (w1 1 - w0 1) ^ 2 = w0 0 * ((w1 1 - w0 1) * w1 1) + w1 0 * ((w1 1 - w0 1) * -(w0 1)) := by
    have := xcross_mul hc'
    rw [pow_two, ← mul_assoc, this]; unfold cr; ring
  by_cases hpp : 0 < w0 0 ∧ 0 < w1 0
  · rw [if_pos hpp]
    refine Or.inr (Or.inl ⟨rfl, ?_⟩)
    have : 0 < xcross w0 w1 * (w1 1 - w0 1) ^ 2 := by
      rw [hxc]; exact add_pos (mul_pos hpp.1 hden.1) (mul_pos hpp.2 hden.2)
    exact (mul_pos_iff_of_pos_right hsq).1 this
  rw [if_neg hpp]
  by_cases hnn : w0 0 < 0 ∧ w1 0 < 0
  · rw [if_pos hnn]
    refine Or.inr (Or.inr ⟨rfl, ?_⟩)
    have : xcross w0 w1 * (w1 1 - w0 1) ^ 2 < 0 := by
      rw [hxc]; exact add_neg (mul_neg_of_neg_of_pos hnn.1 hden.1) (mul_neg_of_neg_of_pos hnn.2 hden.2)
    by_contra hcc
    exact absurd (mul_nonneg (not_lt.1 hcc) hsq.le) (not_le.2 this)
  rw [if_neg hnn]
  -- the division
  have uaz : 0 < P.u * az.val := by positivity
  have rx0 : P.Rep (P.fl (w0 0)) := P.rep_fl _
  have rx1 : P.Rep (P.fl (w1 0)) := P.rep_fl _
  have ry0 : P.Rep (P.fl (w0 1)) := P.rep_fl _
  have ry1 : P.Rep (P.fl (w1 1)) := P.rep_fl _
  have eD := fl_sub_err_u rx1 rx0
  have eE := fl_sub_err_u ry1 ry0
  have eN := P.fl_err_u (-P.fl (w0 1) * P.fl (P.fl (w1 0) - P.fl (w0 0)))
  have eQ := P.fl_err_u (P.fl (-P.fl (w0 1) * P.fl (P.fl (w1 0) - P.fl (w0 0))) / P.fl (P.fl (w1 1) - P.fl (w0 1)))
  have eX := fl_add_err_u (P.rep_fl (P.fl (-P.fl (w0 1) * P.fl (P.fl (w1 0) - P.fl (w0 0))) / P.fl (P.fl (w1 1) - P.fl (w0 1)))) rx0
  obtain ⟨k1, k2, k3, k4⟩ := xcross_err hu0 hu h0 h1 he0 he (by linarith) (by linarith) hY fx0e fx1e fy0e fy1e eD eE eN eQ eX
  rw [hx] at k4
  obtain ⟨-, d1, d2⟩ := sub_err_of hu0 fx0e fx1e rfl eD
  obtain ⟨-, e1, -⟩ := sub_err_of hu0 fy0e fy1e rfl eE
  have R2 : R ≤ R ^ 2 := by rw [pow_two]; exact le_mul_of_one_le_left (by linarith) hR
  have b1 : |P.fl (w1 0) - P.fl (w0 0)| ≤ 3 * R := by
    have : (1 + P.u) * (|w0 0| + |w1 0|) ≤ (1 + 1 / 1024) * (R + R) := mul_le_mul (by linarith) (by linarith) (by positivity) (by norm_num)
    linarith
  have b2 : |P.fl (w1 1) - P.fl (w0 1)| ≤ 3 * R := by
    have : (1 + P.u) * (|w0 1| + |w1 1|) ≤ (1 + 1 / 1024) * (R + R) := mul_le_mul (by linarith) (by linarith) (by positivity) (by norm_num)
    linarith
  have b3 : |P.fl (P.fl (w1 0) - P.fl (w0 0))| ≤ 3 * R := by
    have t : (1 + P.u) ^ 2 ≤ 11 / 10 := by
      have : (1 + P.u) ^ 2 = 1 + 2 * P.u + P.u * P.u := by ring
      have t2 : P.u * P.u ≤ 1 * P.u := mul_le_mul_of_nonneg_right hu1.le hu0.le
      linarith
    have : (1 + P.u) ^ 2 * (|w0 0| + |w1 0|) ≤ 11 / 10 * (R + R) := mul_le_mul t (by linarith) (by positivity) (by norm_num)
    linarith
  have b4 : |-P.fl (w0 1) * P.fl (P.fl (w1 0) - P.fl (w0 0))| ≤ 6 * R ^ 2 := by
    rw [abs_mul, abs_neg]
    have t1 : |P.fl (w0 1)| ≤ 2 * R := by
      have := abs_sub_abs_le_abs_sub (P.fl (w0 1)) (w0 1)
      have t2 : P.u * |w0 1| ≤ 1 * |w0 1| := mul_le_mul_of_nonneg_right hu1.le (abs_nonneg _)
      linarith
    calc _ ≤ (2 * R) * (3 * R) := mul_le_mul t1 b3 (abs_nonneg _) (by linarith)
      _ = _ := by ring
  have fD := is_sub ⟨fx1f, fx1v⟩ ⟨fx0f, fx0v⟩ rfl (fl_lt_bound (by linarith))
  have fE := is_sub ⟨fy1f, fy1v⟩ ⟨fy0f, fy0v⟩ rfl (fl_lt_bound (by linarith))
  have fN := is_mul ⟨Flt.neg_finite.2 fy0f, (Flt.neg_val _).trans (congrArg _ fy0v)⟩ fD rfl (fl_lt_bound (by linarith))
  have fQ := is_div fN fE k1 rfl (fl_lt_bound (by linarith))
  have fX := is_add fQ ⟨fx0f, fx0v⟩ rfl (fl_lt_bound (by linarith))
  generalize hxf : -v0 1 * (v1 0 - v0 0) / (v1 1 - v0 1) + v0 0 = xf at *
  obtain ⟨fXf, fXv⟩ := fX
  rw [isZero_flt fXf haz h0.le, fXv, Flt.lt_val Flt.zero_finite fXf, Flt.zero_val, fXv]
  simp only [decide_eq_true_eq]
  have k5 := abs_le.1 k4
  split_ifs with c1 c2
  · refine Or.inl ⟨rfl, ?_⟩
    have := abs_sub_abs_le_abs_sub (xcross w0 w1) (P.fl (P.fl (P.fl (-P.fl (w0 1) * P.fl (P.fl (w1 0) - P.fl (w0 0))) / P.fl (P.fl (w1 1) - P.fl (w0 1))) + P.fl (w0 0)))
    rw [abs_sub_comm] at this
    linarith
  · refine Or.inr (Or.inl ⟨rfl, ?_⟩)
    rw [abs_of_pos c2] at c1
    linarith [not_le.1 c1]
  · refine Or.inr (Or.inr ⟨rfl, ?_⟩)
    rw [abs_of_nonpos (not_lt.1 c2)] at c1
    linarith [not_le.1 c1]

end vm
