import Verif.Lemmas.FltGeom

/-!
# C97: dot product and point against plane in IEEE arithmetic
-/

set_option linter.unusedSectionVars false
set_option linter.unusedSimpArgs false

namespace vm
variable {P : BinPar} {S : ℕ}

/-- If the computed dot product is finite then so are all components of the vectors, and it differs from the exact dot product by at most
`((1 + 2⁻ᵖ)ⁿ - 1)` times the sum of the absolute values of the products, apart from underflow. -/
theorem C97_dot_error (a b : Vec (Flt P.fmt) S) (h : (dot a b).isFinite) :
    (∀ i, (a i).isFinite ∧ (b i).isFinite) ∧
    |(dot a b).val - ∑ i, (a i).val * (b i).val| ≤
      ((1 + 2 ^ (-(P.p : ℤ))) ^ S - 1) * (∑ i, |(a i).val * (b i).val|) +
        S * (1 + 2 ^ (-(P.p : ℤ))) ^ S * 2 ^ (P.qmin - 1) :=
  ⟨dot_finite_terms a b h, dot_err a b h⟩

/-- The computed dot product of finite vectors is finite unless the sum of the absolute values of the products is close to the
overflow threshold. -/
theorem C97_dot_finite (a b : Vec (Flt P.fmt) S) (ha : ∀ i, (a i).isFinite) (hb : ∀ i, (b i).isFinite)
    (h : (1 + 2 ^ (-(P.p : ℤ))) ^ S * ((∑ i, |(a i).val * (b i).val|) + S * 2 ^ (P.qmin - 1)) < 2 ^ (P.p + P.qmax)) :
    (dot a b).isFinite := by
  refine dot_finite a b ha hb (lt_of_le_of_lt (le_of_eq ?_) h)
  show absDot a b + (((1 + P.u) ^ S - 1) * absDot a b + S * (1 + P.u) ^ S * P.eta) = (1 + P.u) ^ S * (absDot a b + S * P.eta)
  ring

/-- The bound of the error of the distance of a point from a plane. -/
def distErr (P : BinPar) (S : ℕ) (A D : ℚ) : ℚ :=
  2 ^ (-(P.p : ℤ)) * |D| + (1 + 2 ^ (-(P.p : ℤ))) * (((1 + 2 ^ (-(P.p : ℤ))) ^ S - 1) * A +
    S * (1 + 2 ^ (-(P.p : ℤ))) ^ S * 2 ^ (P.qmin - 1))

/-- The computed distance of a point from a plane differs from the exact value `D` of the plane equation by at most `distErr`, where `A` is
the sum of the absolute values of the products. -/
theorem C97_point_distance (pl : Plane (Flt P.fmt) S) (x : Vec (Flt P.fmt) S) (h : (pl.pointDistance x).isFinite) :
    |(pl.pointDistance x).val - (∑ i, (x i).val * (pl.normal i).val - pl.distance.val)| ≤
      distErr P S (∑ i, |(x i).val * (pl.normal i).val|) (∑ i, (x i).val * (pl.normal i).val - pl.distance.val) := by
  obtain ⟨h1, h2⟩ := Flt.sub_finite (show (dot x pl.normal - pl.distance).isFinite from h)
  have hd := dot_err x pl.normal h1
  have hu := P.u_pos
  have e : (pl.pointDistance x).val = P.fl ((dot x pl.normal).val - pl.distance.val) :=
    Flt.sub_val (show (dot x pl.normal - pl.distance).isFinite from h)
  have hs := BinPar.fl_sub_err_u (Flt.rep_val (dot x pl.normal)).1 (Flt.rep_val pl.distance).1
  rw [e]
  show |_ - (exactDot x pl.normal - pl.distance.val)| ≤ P.u * |exactDot x pl.normal - pl.distance.val| +
    (1 + P.u) * dotErr P S (absDot x pl.normal)
  set s := (dot x pl.normal).val
  set X := exactDot x pl.normal
  set d := pl.distance.val
  set E := dotErr P S (absDot x pl.normal)
  have h3 : |s - d| ≤ |X - d| + E := by
    have : s - d = (X - d) + (s - X) := by ring
    rw [this]
    exact (abs_add_le _ _).trans (add_le_add le_rfl hd)
  have h4 : |P.fl (s - d) - (X - d)| ≤ |P.fl (s - d) - (s - d)| + |s - X| := by
    have : P.fl (s - d) - (X - d) = (P.fl (s - d) - (s - d)) + (s - X) := by ring
    rw [this]
    exact abs_add_le _ _
  have h5 : P.u * |s - d| ≤ P.u * (|X - d| + E) := mul_le_mul_of_nonneg_left h3 hu.le
  linarith

/-- `point_status` is right for every point whose exact distance from the plane differs from the tolerance by more than the error of
the computation: with `D` the exact value of the plane equation and `B` its error bound, the point is reported above if `D` is greater
than the tolerance plus `B`, below if `-D` is, and inside if `|D| + B` is at most the tolerance. -/
theorem C97_point_status (pl : Plane (Flt P.fmt) S) (x : Vec (Flt P.fmt) S) (eps : Flt P.fmt) (heps : eps.isFinite)
    (h : (pl.pointDistance x).isFinite) (D B : ℚ) (hD : D = ∑ i, (x i).val * (pl.normal i).val - pl.distance.val)
    (hB : B = distErr P S (∑ i, |(x i).val * (pl.normal i).val|) D) :
    (eps.val + B < D → pl.pointStatus x eps = .above) ∧
    (0 ≤ eps.val → eps.val + B < -D → pl.pointStatus x eps = .below) ∧
    (|D| + B ≤ eps.val → pl.pointStatus x eps = .inside) := by
  have hd := C97_point_distance pl x h
  rw [← hD, ← hB, abs_le] at hd
  have hn : (-eps).isFinite := Flt.neg_finite.2 heps
  have key : pl.pointStatus x eps = if eps.val < (pl.pointDistance x).val then PlaneStatus.above else
      if (pl.pointDistance x).val < -eps.val then .below else .inside := by
    unfold Plane.pointStatus
    simp only [Flt.lt_val heps h, Flt.lt_val h hn, Flt.neg_val, decide_eq_true_eq]
  rw [key]
  refine ⟨fun h1 => ?_, fun h0 h1 => ?_, fun h1 => ?_⟩
  · rw [if_pos (by linarith)]
  · rw [if_neg (by linarith), if_pos (by linarith)]
  · have h2 := le_abs_self D
    have h3 := neg_abs_le D
    rw [if_neg (by linarith), if_neg (by linarith)]

/-- For `double`, points with coordinates of at most `2¹⁷` in absolute value, planes at a distance of at most `2¹⁹` from the origin and the
default tolerance `0.0001`, `point_status` is right for all points whose exact distance (if the normal has unit length) differs
from the tolerance by at least `10⁻⁹`. -/
theorem C97_double (pl : Plane (Flt binary64.fmt) 3) (x : Vec (Flt binary64.fmt) 3) (hx : ∀ i, (x i).isFinite ∧ |(x i).val| ≤ 2 ^ 17)
    (hn : ∀ i, (pl.normal i).isFinite ∧ |(pl.normal i).val| ≤ 1) (hd : pl.distance.isFinite ∧ |pl.distance.val| ≤ 2 ^ 19)
    (D : ℚ) (hD : D = ∑ i, (x i).val * (pl.normal i).val - pl.distance.val) :
    (1 / 10 ^ 4 + 1 / 10 ^ 9 ≤ D → pl.pointStatus x (Flt.round (1 / 10 ^ 4)) = .above) ∧
    (D ≤ -(1 / 10 ^ 4 + 1 / 10 ^ 9) → pl.pointStatus x (Flt.round (1 / 10 ^ 4)) = .below) ∧
    (|D| ≤ 1 / 10 ^ 4 - 1 / 10 ^ 9 → pl.pointStatus x (Flt.round (1 / 10 ^ 4)) = .inside) := by
  have hu : binary64.u = 1 / 2 ^ 53 := by
    show (2 : ℚ) ^ (-((53 : ℕ) : ℤ)) = _
    rw [zpow_neg, zpow_natCast, one_div]
  have he : binary64.eta ≤ 1 / 2 ^ 100 := by
    show (2 : ℚ) ^ ((-1074 : ℤ) - 1) ≤ _
    have : (2 : ℚ) ^ ((-1074 : ℤ) - 1) ≤ 2 ^ (-((100 : ℕ) : ℤ)) := zpow_le_zpow_right₀ (by norm_num) (by norm_num)
    rwa [zpow_neg, zpow_natCast, ← one_div] at this
  have he0 := binary64.eta_pos
  have hbound : (2 : ℚ) ^ 100 ≤ binary64.bound := by
    show (2 : ℚ) ^ 100 ≤ 2 ^ (((53 : ℕ) : ℤ) + 971)
    have : (2 : ℚ) ^ ((100 : ℕ) : ℤ) ≤ 2 ^ (((53 : ℕ) : ℤ) + 971) := zpow_le_zpow_right₀ (by norm_num) (by norm_num)
    rwa [zpow_natCast] at this
  have hprod : ∀ i, |(x i).val * (pl.normal i).val| ≤ 2 ^ 17 := by
    intro i
    rw [abs_mul]
    have h1 := (hx i).2
    have h2 := (hn i).2
    have := mul_le_mul h1 h2 (abs_nonneg _) (by norm_num)
    rwa [mul_one] at this
  have hA : absDot x pl.normal ≤ 3 * 2 ^ 17 := by
    have : ∑ i : Fin 3, |(x i).val * (pl.normal i).val| ≤ ∑ _i : Fin 3, (2 : ℚ) ^ 17 := Finset.sum_le_sum fun i _ => hprod i
    rw [Finset.sum_const, Finset.card_fin, nsmul_eq_mul] at this
    exact this
  have hA0 := absDot_nonneg x pl.normal
  have hDb : |D| ≤ 2 ^ 20 := by
    have h1 : |exactDot x pl.normal| ≤ absDot x pl.normal := Finset.abs_sum_le_sum_abs _ _
    have h2 : D = exactDot x pl.normal - pl.distance.val := hD
    rw [h2]
    have h3 := hd.2
    have := abs_sub (exactDot x pl.normal) pl.distance.val
    linarith
  have hE : dotErr binary64 3 (absDot x pl.normal) ≤ 2 / 10 ^ 10 := by
    unfold dotErr
    rw [hu]
    push_cast
    have h1 : ((1 + 1 / 2 ^ 53 : ℚ) ^ 3 - 1) * absDot x pl.normal ≤ ((1 + 1 / 2 ^ 53) ^ 3 - 1) * (3 * 2 ^ 17) :=
      mul_le_mul_of_nonneg_left hA (by norm_num)
    have h2 : (3 : ℚ) * (1 + 1 / 2 ^ 53) ^ 3 * binary64.eta ≤ 3 * (1 + 1 / 2 ^ 53) ^ 3 * (1 / 2 ^ 100) :=
      mul_le_mul_of_nonneg_left he (by norm_num)
    have h3 : ((1 + 1 / 2 ^ 53 : ℚ) ^ 3 - 1) * (3 * 2 ^ 17) + 3 * (1 + 1 / 2 ^ 53) ^ 3 * (1 / 2 ^ 100) ≤ 2 / 10 ^ 10 := by norm_num
    linarith
  have hdotfin : (dot x pl.normal).isFinite := by
    refine dot_finite x pl.normal (fun i => (hx i).1) (fun i => (hn i).1) ?_
    have : (3 * 2 ^ 17 + 2 / 10 ^ 10 : ℚ) < 2 ^ 100 := by norm_num
    linarith
  have hdot : |(dot x pl.normal).val| ≤ 2 ^ 19 := by
    have h1 := dot_err x pl.normal hdotfin
    have h2 : |exactDot x pl.normal| ≤ absDot x pl.normal := Finset.abs_sum_le_sum_abs _ _
    have h3 : |(dot x pl.normal).val| ≤ |exactDot x pl.normal| + |(dot x pl.normal).val - exactDot x pl.normal| := by
      have : (dot x pl.normal).val = exactDot x pl.normal + ((dot x pl.normal).val - exactDot x pl.normal) := by ring
      conv_lhs => rw [this]
      exact abs_add_le _ _
    have : (3 * 2 ^ 17 + 2 / 10 ^ 10 : ℚ) ≤ 2 ^ 19 := by norm_num
    linarith
  have hfin : (pl.pointDistance x).isFinite := by
    show (dot x pl.normal - pl.distance).isFinite
    rw [Flt.sub_eq hdotfin hd.1, Flt.round_finite]
    have h1 := BinPar.fl_sub_err_u (Flt.rep_val (dot x pl.normal)).1 (Flt.rep_val pl.distance).1
    have h2 := abs_sub (dot x pl.normal).val pl.distance.val
    have h3 := hd.2
    rw [hu] at h1
    set y := (dot x pl.normal).val - pl.distance.val
    have h4 : |binary64.fl y| ≤ |y| + |binary64.fl y - y| := by
      have : |y + (binary64.fl y - y)| ≤ |y| + |binary64.fl y - y| := abs_add_le _ _
      rwa [add_sub_cancel] at this
    have h5 : (1 / 2 ^ 53 : ℚ) * |y| ≤ 1 / 2 ^ 53 * 2 ^ 20 := mul_le_mul_of_nonneg_left (by linarith) (by norm_num)
    have : (2 ^ 20 + 1 / 2 ^ 53 * 2 ^ 20 : ℚ) < 2 ^ 100 := by norm_num
    linarith
  have hepsr : |binary64.fl (1 / 10 ^ 4) - 1 / 10 ^ 4| ≤ 1 / 10 ^ 15 := by
    have h1 := binary64.fl_err_u (1 / 10 ^ 4)
    rw [hu, abs_of_pos (show (0 : ℚ) < 1 / 10 ^ 4 by norm_num)] at h1
    have : (1 / 2 ^ 53 * (1 / 10 ^ 4) + 1 / 2 ^ 100 : ℚ) ≤ 1 / 10 ^ 15 := by norm_num
    linarith
  have hepsfin : (Flt.round (1 / 10 ^ 4) : Flt binary64.fmt).isFinite := by
    rw [Flt.round_finite]
    have h4 : |(1 / 10 ^ 4 : ℚ) + (binary64.fl (1 / 10 ^ 4) - 1 / 10 ^ 4)| ≤ |(1 / 10 ^ 4 : ℚ)| + |binary64.fl (1 / 10 ^ 4) - 1 / 10 ^ 4| :=
      abs_add_le _ _
    rw [add_sub_cancel, abs_of_pos (show (0 : ℚ) < 1 / 10 ^ 4 by norm_num)] at h4
    have : (1 / 10 ^ 4 + 1 / 10 ^ 15 : ℚ) < 2 ^ 100 := by norm_num
    linarith
  have hev := Flt.round_val hepsfin
  have hB : distErr binary64 3 (∑ i, |(x i).val * (pl.normal i).val|) D ≤ 5 / 10 ^ 10 := by
    show binary64.u * |D| + (1 + binary64.u) * dotErr binary64 3 (absDot x pl.normal) ≤ _
    rw [hu]
    have h1 : (1 / 2 ^ 53 : ℚ) * |D| ≤ 1 / 2 ^ 53 * 2 ^ 20 := mul_le_mul_of_nonneg_left hDb (by norm_num)
    have h2 : (1 + 1 / 2 ^ 53 : ℚ) * dotErr binary64 3 (absDot x pl.normal) ≤ (1 + 1 / 2 ^ 53) * (2 / 10 ^ 10) :=
      mul_le_mul_of_nonneg_left hE (by norm_num)
    have : (1 / 2 ^ 53 * 2 ^ 20 + (1 + 1 / 2 ^ 53) * (2 / 10 ^ 10) : ℚ) ≤ 5 / 10 ^ 10 := by norm_num
    linarith
  obtain ⟨k1, k2, k3⟩ := C97_point_status pl x _ hepsfin hfin D _ hD rfl
  rw [hev] at k1 k2 k3
  rw [abs_le] at hepsr
  have t1 : (5 / 10 ^ 10 + 1 / 10 ^ 15 : ℚ) < 1 / 10 ^ 9 := by norm_num
  have t2 : (1 / 10 ^ 15 : ℚ) < 1 / 10 ^ 4 := by norm_num
  refine ⟨fun h => k1 (by linarith), fun h => k2 (by linarith) (by linarith), fun h => k3 (by linarith)⟩

/-- For `float` the default tolerance is smaller than the rounding errors of coordinates of this size: a point whose plane equation has the
exact value `0.00195` is reported inside with the tolerance `0.0001`. -/
theorem C97_float_fails : ∃ (pl : Plane (Flt binary32.fmt) 3) (x : Vec (Flt binary32.fmt) 3),
    (∀ i, (x i).isFinite ∧ |(x i).val| ≤ 2 ^ 17) ∧ (∀ i, (pl.normal i).isFinite ∧ |(pl.normal i).val| ≤ 1) ∧
    (∑ i, (x i).val * (pl.normal i).val - pl.distance.val = 1 / 2 ^ 9) ∧
    pl.pointStatus x (Flt.round (1 / 10 ^ 4)) = .inside := by
  have r1 : binary32.fmt.rep 98304 := by
    have := binary32.rep_of_int (n := 98304) (by norm_num [binary32])
    exact_mod_cast this
  have r2 : binary32.fmt.rep (1 - 1 / 2 ^ 24) := by
    refine ⟨⟨2 ^ 24 - 1, -24, by norm_num, by norm_num [binary32], by norm_num [binary32]⟩, ?_⟩
    exact lt_of_lt_of_le (by rw [abs_of_pos] <;> norm_num) binary32.one_lt_bound.le
  have r3 : binary32.fmt.rep (98304 - 1 / 2 ^ 7) := by
    refine ⟨⟨12582911, -7, by norm_num, by norm_num [binary32], by norm_num [binary32]⟩, ?_⟩
    have := r1.2
    rw [abs_of_pos (by norm_num)] at this ⊢
    exact lt_trans (by norm_num) this
  refine ⟨⟨Flt.fin (F := binary32.fmt) (98304 - 1 / 2 ^ 7) r3, ![Flt.fin (F := binary32.fmt) (1 - 1 / 2 ^ 24) r2, 0, 0]⟩,
    ![Flt.fin (F := binary32.fmt) 98304 r1, 0, 0], ?_, ?_, ?_, ?_⟩
  · intro i
    fin_cases i
    · exact ⟨trivial, show |(98304 : ℚ)| ≤ 2 ^ 17 by norm_num⟩
    · exact ⟨trivial, show |(0 : ℚ)| ≤ 2 ^ 17 by norm_num⟩
    · exact ⟨trivial, show |(0 : ℚ)| ≤ 2 ^ 17 by norm_num⟩
  · intro i
    fin_cases i
    · exact ⟨trivial, show |(1 - 1 / 2 ^ 24 : ℚ)| ≤ 1 by rw [abs_of_pos] <;> norm_num⟩
    · exact ⟨trivial, show |(0 : ℚ)| ≤ 1 by norm_num⟩
    · exact ⟨trivial, show |(0 : ℚ)| ≤ 1 by norm_num⟩
  · rw [Fin.sum_univ_three]
    show (98304 : ℚ) * (1 - 1 / 2 ^ 24) + 0 * 0 + 0 * 0 - (98304 - 1 / 2 ^ 7) = _
    norm_num
  · have e1 : binary32.fl (98304 * (1 - 1 / 2 ^ 24)) = 98304 - 1 / 2 ^ 7 := by
      rw [BinPar.fl_eval (P := binary32) (-7) 12582911 (by norm_num [binary32]) (by norm_num [binary32]) (by norm_num [binary32])
        (by norm_num)]
      norm_num
    have z1 : (Flt.fin (F := binary32.fmt) 98304 r1 * Flt.fin (F := binary32.fmt) (1 - 1 / 2 ^ 24) r2 : Flt binary32.fmt) =
        Flt.fin (F := binary32.fmt) (98304 - 1 / 2 ^ 7) r3 := by
      show (Flt.round (98304 * (1 - 1 / 2 ^ 24)) : Flt binary32.fmt) = _
      have hr : binary32.fmt.rep (binary32.fl (98304 * (1 - 1 / 2 ^ 24))) := by rw [e1]; exact r3
      rw [BinPar.round_fl hr]
      exact BinPar.fin_congr _ e1
    have z0 : (0 * 0 : Flt binary32.fmt) = 0 := by
      show (Flt.round (0 * 0) : Flt binary32.fmt) = _
      rw [zero_mul, BinPar.round_rep binary32.fmt.rep_zero]; rfl
    have za : ∀ (q : ℚ) (h : binary32.fmt.rep q), (Flt.fin (F := binary32.fmt) q h + 0 : Flt binary32.fmt) = Flt.fin (F := binary32.fmt) q h := by
      intro q h
      show (Flt.round (q + 0) : Flt binary32.fmt) = _
      rw [add_zero, BinPar.round_rep h]
    have za' : ∀ (q : ℚ) (h : binary32.fmt.rep q), (0 + Flt.fin (F := binary32.fmt) q h : Flt binary32.fmt) = Flt.fin (F := binary32.fmt) q h := by
      intro q h
      show (Flt.round (0 + q) : Flt binary32.fmt) = _
      rw [zero_add, BinPar.round_rep h]
    have zs : (Flt.fin (F := binary32.fmt) (98304 - 1 / 2 ^ 7) r3 - Flt.fin (F := binary32.fmt) (98304 - 1 / 2 ^ 7) r3 : Flt binary32.fmt) = 0 := by
      rw [BinPar.sub_fin, sub_self, BinPar.round_rep binary32.fmt.rep_zero]; rfl
    unfold Plane.pointStatus Plane.pointDistance dot
    rw [Fin.foldl_succ_last, Fin.foldl_succ_last, Fin.foldl_succ_last, Fin.foldl_zero]
    show (if Cmp.lt (Flt.round (1 / 10 ^ 4) : Flt binary32.fmt)
        ((0 + Flt.fin (F := binary32.fmt) 98304 r1 * Flt.fin (F := binary32.fmt) (1 - 1 / 2 ^ 24) r2 + 0 * 0 + 0 * 0) -
          Flt.fin (F := binary32.fmt) (98304 - 1 / 2 ^ 7) r3) = true then PlaneStatus.above else
      if Cmp.lt ((0 + Flt.fin (F := binary32.fmt) 98304 r1 * Flt.fin (F := binary32.fmt) (1 - 1 / 2 ^ 24) r2 + 0 * 0 + 0 * 0) -
          Flt.fin (F := binary32.fmt) (98304 - 1 / 2 ^ 7) r3) (-Flt.round (1 / 10 ^ 4) : Flt binary32.fmt) = true then
        PlaneStatus.below else PlaneStatus.inside) = _
    rw [z1, z0, za', za, za, zs]
    have hf : 0 ≤ binary32.fl (1 / 10 ^ 4) := binary32.fl_nonneg (by norm_num)
    have hb : |binary32.fl (1 / 10 ^ 4)| < binary32.bound := by
      rw [abs_of_nonneg hf]
      exact lt_of_le_of_lt (binary32.fl_le_of_rep binary32.rep_one (by norm_num)) binary32.one_lt_bound
    have h1 : (Flt.round (1 / 10 ^ 4) : Flt binary32.fmt).isFinite := Flt.round_finite.2 hb
    rw [Flt.lt_val h1 Flt.zero_finite, Flt.lt_val Flt.zero_finite (Flt.neg_finite.2 h1), Flt.neg_val, Flt.round_val h1, Flt.zero_val,
      if_neg (by rw [decide_eq_true_eq]; linarith), if_neg (by rw [decide_eq_true_eq]; linarith)]

/-! ### Non-vacuity -/

theorem round_small {q : ℚ} {n : ℤ} (hn : |n| ≤ 2 ^ P.p) (hq : |q| ≤ n) :
    (Flt.round q : Flt P.fmt).isFinite ∧ |(Flt.round q : Flt P.fmt).val| ≤ n := by
  have h1 : |P.fl q| ≤ n := by
    rw [abs_le] at hq ⊢
    have hr := P.rep_int hn
    exact ⟨by simpa using P.le_fl_of_rep hr.neg hq.1, P.fl_le_of_rep hr hq.2⟩
  have h2 : (Flt.round q : Flt P.fmt).isFinite :=
    Flt.round_finite.2 (lt_of_le_of_lt h1 (lt_of_le_of_lt (le_abs_self _) (P.int_bound hn)))
  exact ⟨h2, by rw [Flt.round_val h2]; exact h1⟩

/-- A plane with normal `(0.6, 0.8, 0)` and a point, rounded to `double`. -/
example : let pl : Plane (Flt binary64.fmt) 3 := ⟨Flt.round (1 / 7), ![Flt.round (3 / 5), Flt.round (4 / 5), Flt.round 0]⟩
    let x : Vec (Flt binary64.fmt) 3 := ![Flt.round 100000, Flt.round (1 / 3), Flt.round (-2)]
    (∀ i, (x i).isFinite ∧ |(x i).val| ≤ 2 ^ 17) ∧ (∀ i, (pl.normal i).isFinite ∧ |(pl.normal i).val| ≤ 1) ∧
    pl.distance.isFinite ∧ |pl.distance.val| ≤ 2 ^ 19 := by
  have h17 : ∀ q : ℚ, |q| ≤ 2 ^ 17 → (Flt.round q : Flt binary64.fmt).isFinite ∧ |(Flt.round q : Flt binary64.fmt).val| ≤ 2 ^ 17 := by
    intro q hq
    have := round_small (P := binary64) (q := q) (n := 2 ^ 17) (by norm_num [binary64]) (by push_cast; exact hq)
    push_cast at this
    exact this
  have h1 : ∀ q : ℚ, |q| ≤ 1 → (Flt.round q : Flt binary64.fmt).isFinite ∧ |(Flt.round q : Flt binary64.fmt).val| ≤ 1 := by
    intro q hq
    have := round_small (P := binary64) (q := q) (n := 1) (by norm_num [binary64]) (by push_cast; exact hq)
    push_cast at this
    exact this
  refine ⟨fun i => ?_, fun i => ?_, (h1 _ (by norm_num)).1, (h1 (1 / 7) (by norm_num)).2.trans (by norm_num)⟩
  · fin_cases i
    · exact h17 _ (by norm_num)
    · exact h17 _ (by norm_num [abs_of_pos])
    · exact h17 _ (by norm_num)
  · fin_cases i
    · exact h1 _ (by norm_num [abs_of_pos])
    · exact h1 _ (by norm_num [abs_of_pos])
    · exact h1 _ (by norm_num)

end vm
