import Verif.Props.FltHull
import Verif.Props.FltPolygon

/-!
Lemmas for C123: vectors on grids and quotients of integers in IEEE arithmetic.
-/

set_option linter.unusedSectionVars false
set_option linter.unusedSimpArgs false

namespace vm
namespace FltTri
open BinPar
variable {P : BinPar}

/-! ### Vectors on grids -/

theorem sub_grid {g A B : ℤ} {a b : Vec (Flt P.fmt) 3} (ha : GridPt g A a) (hb : GridPt g B b) (hg : P.Ok g) (h : A + B < 2 ^ P.p) :
    GridPt g (A + B) (a - b) ∧ vval (a - b) = vval a - vval b :=
  ⟨fun i => (C115_add_sub P g A B a b ha hb hg h i).2.2.1, funext fun i => (C115_add_sub P g A B a b ha hb hg h i).2.2.2⟩

theorem cross_grid {g g' A B : ℤ} {a b : Vec (Flt P.fmt) 3} (ha : GridPt g A a) (hb : GridPt g' B b) (hg : P.Ok (g + g'))
    (h : 2 * (A * B) < 2 ^ P.p) : GridPt (g + g') (2 * (A * B)) (cross a b) ∧ vval (cross a b) = cross (vval a) (vval b) := by
  obtain ⟨za, ha⟩ := OnGrid.steps ha
  obtain ⟨zb, hb⟩ := OnGrid.steps hb
  have hc := fun i => gr_cross ha hb hg h i
  refine ⟨fun i => ⟨(hc i).fin, _, (hc i).val, (hc i).le⟩, funext fun i => ?_⟩
  have : vval (cross a b) i = _ := (hc i).val
  rw [this]
  fin_cases i <;> simp [cross, vval, (ha _).val, (hb _).val, zpow_add₀] <;> ring

theorem dot_grid {g g' A B : ℤ} {a b : Vec (Flt P.fmt) 3} (ha : GridPt g A a) (hb : GridPt g' B b) (hg : P.Ok (g + g'))
    (h : 3 * (A * B) < 2 ^ P.p) : OnGrid (g + g') (3 * (A * B)) (dot a b) ∧ (dot a b).val = dot (vval a) (vval b) := by
  have h1 := C115_dot P g g' A B a b ha hb hg (by exact_mod_cast h)
  obtain ⟨za, ha⟩ := OnGrid.steps ha
  obtain ⟨zb, hb⟩ := OnGrid.steps hb
  have h2 := gr_dot ha hb hg (by exact_mod_cast h)
  refine ⟨⟨h2.fin, _, h2.val, by exact_mod_cast h2.le⟩, ?_⟩
  rw [h1.2, dot3, Fin.sum_univ_three]
  rfl

/-! ### Quotients of integers -/

theorem u_two (P : BinPar) : P.u * 2 ^ P.p = 1 := by
  unfold BinPar.u
  rw [zpow_neg, zpow_natCast]
  exact inv_mul_cancel₀ (by positivity)

theorem half_pow (P : BinPar) : (2 : ℚ) * 2 ^ (P.p - 1) = 2 ^ P.p := by
  have := P.hp
  rw [← pow_succ', Nat.sub_add_cancel (by omega)]

theorem fl_one_u (P : BinPar) : P.fl (1 + P.u) = 1 := by
  have hp := P.hp
  have hm := P.hmin
  have hu := P.u_pos
  have hu8 := P.u_le
  have e1 : (2 : ℚ) ^ (1 - (P.p : ℤ)) = 2 * P.u := by unfold BinPar.u; rw [sub_eq_add_neg, zpow_add2, zpow_one]
  have e2 : (((2 : ℤ) ^ (P.p - 1) : ℤ) : ℚ) * (2 * P.u) = 1 := by
    push_cast
    have := half_pow P; have := u_two P
    rw [← this, ← half_pow]; ring
  have h := fl_eval_even (P := P) (q := 1 + P.u) (1 - P.p) (2 ^ (P.p - 1)) (by omega)
    (by rw [show (1 - (P.p : ℤ)) + P.p - 1 = 0 by ring, zpow_zero, abs_of_pos (by linarith)]; linarith)
    (by rw [show (1 - (P.p : ℤ)) + P.p = 1 by ring, zpow_one, abs_of_pos (by linarith)]; linarith)
    (by
      rw [e1]
      have h3 : (1 + P.u) / (2 * P.u) - (((2 : ℤ) ^ (P.p - 1) : ℤ) : ℚ) = 1 / 2 := by
        rw [div_sub' (by positivity), mul_comm (2 * P.u), e2, add_sub_cancel_left]
        field_simp
      rw [h3, abs_of_pos (by norm_num)])
    (by
      obtain ⟨k, hk⟩ : ∃ k, P.p - 1 = k + 1 := ⟨P.p - 2, by omega⟩
      rw [hk, pow_succ]; omega)
  rw [h, e1, e2]

theorem rep_one_2u (P : BinPar) : P.Rep (1 + 2 * P.u) := by
  have hp := P.hp
  have hm := P.hmin
  refine ⟨2 ^ (P.p - 1) + 1, 1 - P.p, ?_, ?_, by omega⟩
  · have e1 : (2 : ℚ) ^ (1 - (P.p : ℤ)) = 2 * P.u := by unfold BinPar.u; rw [sub_eq_add_neg, zpow_add2, zpow_one]
    rw [e1]
    have := half_pow P; have := u_two P
    push_cast
    rw [add_mul, one_mul, ← this, ← half_pow]; ring
  · obtain ⟨k, hk⟩ : ∃ k, P.p = k + 2 := ⟨P.p - 2, by omega⟩
    rw [hk, show k + 2 - 1 = k + 1 from rfl, abs_of_pos (by positivity), pow_succ 2 (k + 1)]
    have : (2 : ℤ) ≤ 2 ^ (k + 1) := by rw [pow_succ]; have : (1 : ℤ) ≤ 2 ^ k := one_le_pow₀ (by norm_num); omega
    omega

/-- The quotient of two integers is rounded with a small relative error. -/
theorem quot_err {n d : ℤ} (hd0 : d ≠ 0) (hd : |d| < 2 ^ (P.p - 1)) : |P.fl ((n : ℚ) / d) - n / d| ≤ P.u * |(n : ℚ) / d| := by
  by_cases hn : n = 0
  · rw [hn]; simp [P.fl_zero]
  have hp := P.hp
  have hm := P.hmin
  refine fl_err_rel ?_
  have h1 : (1 : ℚ) ≤ |(n : ℚ)| := by exact_mod_cast Int.one_le_abs hn
  have h2 : |(d : ℚ)| < 2 ^ (P.p - 1) := by exact_mod_cast hd
  have h3 : (0 : ℚ) < |(d : ℚ)| := abs_pos.2 (by exact_mod_cast hd0)
  rw [abs_div, le_div_iff₀ h3]
  have h4 : (2 : ℚ) ^ (P.qmin + P.p - 1) ≤ 2 ^ (-(P.p - 1 : ℤ)) := zpow_le_zpow_right₀ (by norm_num) (by omega)
  have h5 : (2 : ℚ) ^ (-(P.p - 1 : ℤ)) * 2 ^ (P.p - 1) = 1 := by
    rw [zpow_neg, show (P.p - 1 : ℤ) = ((P.p - 1 : ℕ) : ℤ) by omega, zpow_natCast]
    exact inv_mul_cancel₀ (by positivity)
  have h6 := two_zpow_pos (P.qmin + P.p - 1)
  have h7 := two_zpow_pos (-(P.p - 1 : ℤ))
  calc (2 : ℚ) ^ (P.qmin + P.p - 1) * |(d : ℚ)| ≤ 2 ^ (-(P.p - 1 : ℤ)) * 2 ^ (P.p - 1) := mul_le_mul h4 h2.le h3.le h7.le
    _ ≤ |(n : ℚ)| := by rw [h5]; exact h1

/-- The sum of two rounded quotients exceeds one exactly if the sum of the quotients does. -/
theorem sum_le_one {n m d : ℤ} (hd0 : d ≠ 0) (hd : |d| < 2 ^ (P.p - 1)) (hn : 0 ≤ (n : ℚ) / d) (hm : 0 ≤ (m : ℚ) / d) :
    P.fl (P.fl ((n : ℚ) / d) + P.fl ((m : ℚ) / d)) ≤ 1 ↔ (n : ℚ) / d + m / d ≤ 1 := by
  have hu := P.u_pos
  have hu8 := P.u_le
  have e1 := abs_le.1 (quot_err (P := P) (n := n) hd0 hd)
  have e2 := abs_le.1 (quot_err (P := P) (n := m) hd0 hd)
  rw [abs_of_nonneg hn] at e1
  rw [abs_of_nonneg hm] at e2
  set V := (n : ℚ) / d with hV
  set W := (m : ℚ) / d with hW
  constructor
  · intro h
    by_contra hc
    rw [not_le] at hc
    have hd1 : (0 : ℚ) < |(d : ℚ)| := abs_pos.2 (by exact_mod_cast hd0)
    have hdq : |(d : ℚ)| ≤ 2 ^ (P.p - 1) - 1 := by
      have : |d| ≤ 2 ^ (P.p - 1) - 1 := by omega
      exact_mod_cast this
    -- the excess is at least one step
    have h1 : |(d : ℚ)| + 1 ≤ (V + W) * |(d : ℚ)| := by
      have e : ((n + m : ℤ) : ℚ) = (V + W) * d := by
        rw [hV, hW, add_mul, div_mul_cancel₀ _ (by exact_mod_cast hd0), div_mul_cancel₀ _ (by exact_mod_cast hd0)]; push_cast; ring
      have e' : ((|n + m| : ℤ) : ℚ) = (V + W) * |(d : ℚ)| := by
        rw [Int.cast_abs, e, abs_mul, abs_of_pos (by linarith : 0 < V + W)]
      have : (|(d : ℚ)|) < ((|n + m| : ℤ) : ℚ) := by rw [e']; nlinarith
      rw [← e']
      have : |d| < |n + m| := by exact_mod_cast this
      have : |d| + 1 ≤ |n + m| := this
      exact_mod_cast this
    have hq : P.u * (|(d : ℚ)| + 1) ≤ 1 / 2 := by
      have h2 := u_two P
      rw [← half_pow] at h2
      have : P.u * (|(d : ℚ)| + 1) ≤ P.u * 2 ^ (P.p - 1) := mul_le_mul_of_nonneg_left (by linarith) hu.le
      linarith
    -- the rounded sum exceeds the midpoint
    have h3 : 1 + P.u < P.fl V + P.fl W := by
      have h4 : (1 - P.u) * (V + W) ≤ P.fl V + P.fl W := by linarith
      refine lt_of_lt_of_le ?_ h4
      have h5 : (1 - P.u) * (|(d : ℚ)| + 1) ≤ (1 - P.u) * ((V + W) * |(d : ℚ)|) := mul_le_mul_of_nonneg_left h1 (by linarith)
      have h6 : (1 + P.u) * |(d : ℚ)| < (1 - P.u) * (|(d : ℚ)| + 1) := by nlinarith
      have h7 : (1 + P.u) * |(d : ℚ)| < ((1 - P.u) * (V + W)) * |(d : ℚ)| := by linarith
      exact lt_of_mul_lt_mul_right h7 hd1.le
    rcases P.le_mean_of_fl (rep_one_2u P) (h.trans (by linarith)) with h' | h' <;> linarith
  · intro h
    have : P.fl V + P.fl W ≤ 1 + P.u := by nlinarith
    have := P.fl_mono this
    rwa [fl_one_u] at this

/-- Rounding a nonzero scaled quotient of integers keeps its sign. -/
theorem scaled_sign {n d k : ℤ} (hd0 : d ≠ 0) (hd : |d| < 2 ^ (P.p - 1)) (hk : P.qmin + P.p - 1 ≤ k) :
    P.fl ((n : ℚ) / d * 2 ^ k) < 0 ↔ (n : ℚ) / d * 2 ^ k < 0 := by
  have hp := P.hp
  have h2k := two_zpow_pos k
  have hd1 : (0 : ℚ) < |(d : ℚ)| := abs_pos.2 (by exact_mod_cast hd0)
  have hd2 : |(d : ℚ)| ≤ 2 ^ (P.p - 1) := by exact_mod_cast hd.le
  constructor
  · intro h
    by_contra hc
    exact absurd (P.fl_nonneg (not_lt.1 hc)) (not_le.2 h)
  · intro h
    have hn : n ≠ 0 := by rintro rfl; simp at h
    have h1 : (1 : ℚ) ≤ |(n : ℚ)| := by exact_mod_cast Int.one_le_abs hn
    have hr : P.Rep (2 ^ (k - (P.p - 1))) := ⟨1, k - (P.p - 1), by simp, by rw [abs_one]; exact one_lt_pow₀ (by norm_num) (by omega), by omega⟩
    have h3 : (2 : ℚ) ^ (k - (P.p - 1 : ℤ)) ≤ -((n : ℚ) / d * 2 ^ k) := by
      rw [← abs_of_neg h, abs_mul, abs_div, abs_of_pos h2k, sub_eq_add_neg, zpow_add2, mul_comm]
      refine mul_le_mul_of_nonneg_right ?_ h2k.le
      rw [zpow_neg, show (P.p - 1 : ℤ) = ((P.p - 1 : ℕ) : ℤ) by omega, zpow_natCast, inv_eq_one_div]
      exact div_le_div₀ (by linarith) h1 hd1 hd2
    have := fl_pos (P := P) hr (two_zpow_pos _) h3
    rw [P.fl_neg] at this
    linarith

/-- A scaled quotient of integers does not overflow. -/
theorem scaled_bound {n d k : ℤ} (hd0 : d ≠ 0) (hn : |n| < 2 ^ P.p) (hk : k ≤ P.qmax) : |P.fl ((n : ℚ) / d * 2 ^ k)| < P.bound := by
  have hp := P.hp
  have hmin := P.hmin
  have hmax := P.hmax
  have hd1 : (1 : ℚ) ≤ |(d : ℚ)| := by exact_mod_cast Int.one_le_abs hd0
  have hr : P.Rep ((2 ^ P.p - 1 : ℤ) * 2 ^ P.qmax) := ⟨2 ^ P.p - 1, P.qmax, rfl, by
    have : (1 : ℤ) ≤ 2 ^ P.p := one_le_pow₀ (by norm_num)
    rw [abs_of_nonneg (by omega)]; omega, by omega⟩
  have h1 : |(n : ℚ) / d * 2 ^ k| ≤ (2 ^ P.p - 1 : ℤ) * 2 ^ P.qmax := by
    rw [abs_mul, abs_div, abs_of_pos (two_zpow_pos k)]
    have h2 : |(n : ℚ)| / |(d : ℚ)| ≤ |(n : ℚ)| := div_le_self (abs_nonneg _) hd1
    have h3 : |(n : ℚ)| ≤ ((2 ^ P.p - 1 : ℤ) : ℚ) := by
      have : |n| ≤ 2 ^ P.p - 1 := by omega
      exact_mod_cast this
    exact mul_le_mul (h2.trans h3) (zpow_le_zpow_right₀ (by norm_num) hk) (two_zpow_pos k).le ((abs_nonneg _).trans h3)
  have hb : (((2 ^ P.p - 1 : ℤ) : ℚ)) * 2 ^ P.qmax < P.bound := by
    unfold BinPar.bound
    rw [zpow_add2, zpow_natCast]
    refine mul_lt_mul_of_pos_right ?_ (two_zpow_pos _)
    push_cast; linarith
  obtain ⟨h4, h5⟩ := abs_le.1 h1
  have h6 := P.fl_le_of_rep hr h5
  have h7 := P.le_fl_of_rep hr.neg h4
  exact lt_of_le_of_lt (abs_le.2 ⟨h7, h6⟩) hb

/-! ### Rounded numerators -/

/-- The arithmetic of `C123_gap_fails`: two quotients are negative that are zero without rounding. -/
theorem gap_values {o d a b c e : Vec (Flt binary32.fmt) 3}
    (o0 : (o 0).isFinite ∧ (o 0).val = 0) (o1 : (o 1).isFinite ∧ (o 1).val = 0) (o2 : (o 2).isFinite ∧ (o 2).val = 0) (d0 : (d 0).isFinite ∧ (d 0).val = -10) (d1 : (d 1).isFinite ∧ (d 1).val = 259) (d2 : (d 2).isFinite ∧ (d 2).val = 289)
    (a0 : (a 0).isFinite ∧ (a 0).val = 255) (a1 : (a 1).isFinite ∧ (a 1).val = 235) (a2 : (a 2).isFinite ∧ (a 2).val = 294) (b0 : (b 0).isFinite ∧ (b 0).val = -275) (b1 : (b 1).isFinite ∧ (b 1).val = 283) (b2 : (b 2).isFinite ∧ (b 2).val = 284)
    (c0 : (c 0).isFinite ∧ (c 0).val = 220) (c1 : (c 1).isFinite ∧ (c 1).val = 0) (c2 : (c 2).isFinite ∧ (c 2).val = 0) (e0 : (e 0).isFinite ∧ (e 0).val = -191) (e1 : (e 1).isFinite ∧ (e 1).val = 0) (e2 : (e 2).isFinite ∧ (e 2).val = 0) :
    Cmp.lt (dot (cross (o - a) (b - a)) d / dot (cross d (c - a)) (b - a)) 0 = true ∧
    Cmp.lt (dot (cross d (b - a)) (o - a) / dot (cross d (b - a)) (e - a)) 0 = true := by
  have z0 : (0 : Flt binary32.fmt).isFinite ∧ (0 : Flt binary32.fmt).val = 0 := ⟨trivial, rfl⟩
  have x1 := is_sub (c := (-530)) b0 a0 (by fl_num (-14) (-8683520)) (lt_bound32 (by norm_num [abs_le]))
  have x2 := is_sub (c := (48)) b1 a1 (by fl_num (-18) (12582912)) (lt_bound32 (by norm_num [abs_le]))
  have x3 := is_sub (c := (-10)) b2 a2 (by fl_num (-20) (-10485760)) (lt_bound32 (by norm_num [abs_le]))
  have x4 := is_sub (c := (-35)) c0 a0 (by fl_num (-18) (-9175040)) (lt_bound32 (by norm_num [abs_le]))
  have x5 := is_sub (c := (-235)) c1 a1 (by fl_num (-16) (-15400960)) (lt_bound32 (by norm_num [abs_le]))
  have x6 := is_sub (c := (-294)) c2 a2 (by fl_num (-15) (-9633792)) (lt_bound32 (by norm_num [abs_le]))
  have x7 := is_mul (c := (-76146)) d1 x6 (by fl_num (-7) (-9746688)) (lt_bound32 (by norm_num [abs_le]))
  have x8 := is_mul (c := (-67915)) d2 x5 (by fl_num (-7) (-8693120)) (lt_bound32 (by norm_num [abs_le]))
  have x9 := is_sub (c := (-8231)) x7 x8 (by fl_num (-10) (-8428544)) (lt_bound32 (by norm_num [abs_le]))
  have x10 := is_mul (c := (-10115)) d2 x4 (by fl_num (-10) (-10357760)) (lt_bound32 (by norm_num [abs_le]))
  have x11 := is_mul (c := (2940)) d0 x6 (by fl_num (-12) (12042240)) (lt_bound32 (by norm_num [abs_le]))
  have x12 := is_sub (c := (-13055)) x10 x11 (by fl_num (-10) (-13368320)) (lt_bound32 (by norm_num [abs_le]))
  have x13 := is_mul (c := (2350)) d0 x5 (by fl_num (-12) (9625600)) (lt_bound32 (by norm_num [abs_le]))
  have x14 := is_mul (c := (-9065)) d1 x4 (by fl_num (-10) (-9282560)) (lt_bound32 (by norm_num [abs_le]))
  have x15 := is_sub (c := (11415)) x13 x14 (by fl_num (-10) (11688960)) (lt_bound32 (by norm_num [abs_le]))
  have x16 := is_mul (c := (4362430)) x9 x1 (by fl_num (-1) (8724860)) (lt_bound32 (by norm_num [abs_le]))
  have x17 := is_add (c := (4362430)) z0 x16 (by fl_num (-1) (8724860)) (lt_bound32 (by norm_num [abs_le]))
  have x18 := is_mul (c := (-626640)) x12 x2 (by fl_num (-4) (-10026240)) (lt_bound32 (by norm_num [abs_le]))
  have x19 := is_add (c := (3735790)) x17 x18 (by fl_num (-2) (14943160)) (lt_bound32 (by norm_num [abs_le]))
  have x20 := is_mul (c := (-114150)) x15 x3 (by fl_num (-7) (-14611200)) (lt_bound32 (by norm_num [abs_le]))
  have x21 := is_add (c := (3621640)) x19 x20 (by fl_num (-2) (14486560)) (lt_bound32 (by norm_num [abs_le]))
  have x22 := is_sub (c := (-255)) o0 a0 (by fl_num (-16) (-16711680)) (lt_bound32 (by norm_num [abs_le]))
  have x23 := is_sub (c := (-235)) o1 a1 (by fl_num (-16) (-15400960)) (lt_bound32 (by norm_num [abs_le]))
  have x24 := is_sub (c := (-294)) o2 a2 (by fl_num (-15) (-9633792)) (lt_bound32 (by norm_num [abs_le]))
  have x25 := is_mul (c := (2350)) x23 x3 (by fl_num (-12) (9625600)) (lt_bound32 (by norm_num [abs_le]))
  have x26 := is_mul (c := (-14112)) x24 x2 (by fl_num (-10) (-14450688)) (lt_bound32 (by norm_num [abs_le]))
  have x27 := is_sub (c := (16462)) x25 x26 (by fl_num (-9) (8428544)) (lt_bound32 (by norm_num [abs_le]))
  have x28 := is_mul (c := (155820)) x24 x1 (by fl_num (-6) (9972480)) (lt_bound32 (by norm_num [abs_le]))
  have x29 := is_mul (c := (2550)) x22 x3 (by fl_num (-12) (10444800)) (lt_bound32 (by norm_num [abs_le]))
  have x30 := is_sub (c := (153270)) x28 x29 (by fl_num (-6) (9809280)) (lt_bound32 (by norm_num [abs_le]))
  have x31 := is_mul (c := (-12240)) x22 x2 (by fl_num (-10) (-12533760)) (lt_bound32 (by norm_num [abs_le]))
  have x32 := is_mul (c := (124550)) x23 x1 (by fl_num (-7) (15942400)) (lt_bound32 (by norm_num [abs_le]))
  have x33 := is_sub (c := (-136790)) x31 x32 (by fl_num (-6) (-8754560)) (lt_bound32 (by norm_num [abs_le]))
  have x34 := is_mul (c := (-164620)) x27 d0 (by fl_num (-6) (-10535680)) (lt_bound32 (by norm_num [abs_le]))
  have x35 := is_add (c := (-164620)) z0 x34 (by fl_num (-6) (-10535680)) (lt_bound32 (by norm_num [abs_le]))
  have x36 := is_mul (c := (39696928)) x30 d1 (by fl_tie (2) (9924232)) (lt_bound32 (by norm_num [abs_le]))
  have x37 := is_add (c := (39532308)) x35 x36 (by fl_num (2) (9883077)) (lt_bound32 (by norm_num [abs_le]))
  have x38 := is_mul (c := (-39532312)) x33 d2 (by fl_tie (2) (-9883078)) (lt_bound32 (by norm_num [abs_le]))
  have x39 := is_add (c := (-4)) x37 x38 (by fl_num (-21) (-8388608)) (lt_bound32 (by norm_num [abs_le]))
  have x40 := is_div (c := (-9715039 / 8796093022208)) x39 x21 (by norm_num) (by fl_num (-43) (-9715039)) (lt_bound32 (by norm_num [abs_le]))
  have x41 := is_sub (c := (-446)) e0 a0 (by fl_num (-15) (-14614528)) (lt_bound32 (by norm_num [abs_le]))
  have x42 := is_sub (c := (-235)) e1 a1 (by fl_num (-16) (-15400960)) (lt_bound32 (by norm_num [abs_le]))
  have x43 := is_sub (c := (-294)) e2 a2 (by fl_num (-15) (-9633792)) (lt_bound32 (by norm_num [abs_le]))
  have x44 := is_mul (c := (-2590)) d1 x3 (by fl_num (-12) (-10608640)) (lt_bound32 (by norm_num [abs_le]))
  have x45 := is_mul (c := (13872)) d2 x2 (by fl_num (-10) (14204928)) (lt_bound32 (by norm_num [abs_le]))
  have x46 := is_sub (c := (-16462)) x44 x45 (by fl_num (-9) (-8428544)) (lt_bound32 (by norm_num [abs_le]))
  have x47 := is_mul (c := (-153170)) d2 x1 (by fl_num (-6) (-9802880)) (lt_bound32 (by norm_num [abs_le]))
  have x48 := is_mul (c := (100)) d0 x3 (by fl_num (-17) (13107200)) (lt_bound32 (by norm_num [abs_le]))
  have x49 := is_sub (c := (-153270)) x47 x48 (by fl_num (-6) (-9809280)) (lt_bound32 (by norm_num [abs_le]))
  have x50 := is_mul (c := (-480)) d0 x2 (by fl_num (-15) (-15728640)) (lt_bound32 (by norm_num [abs_le]))
  have x51 := is_mul (c := (-137270)) d1 x1 (by fl_num (-6) (-8785280)) (lt_bound32 (by norm_num [abs_le]))
  have x52 := is_sub (c := (136790)) x50 x51 (by fl_num (-6) (8754560)) (lt_bound32 (by norm_num [abs_le]))
  have x53 := is_mul (c := (7342052)) x46 x41 (by fl_num (-1) (14684104)) (lt_bound32 (by norm_num [abs_le]))
  have x54 := is_add (c := (7342052)) z0 x53 (by fl_num (-1) (14684104)) (lt_bound32 (by norm_num [abs_le]))
  have x55 := is_mul (c := (36018448)) x49 x42 (by fl_tie (2) (9004612)) (lt_bound32 (by norm_num [abs_le]))
  have x56 := is_add (c := (43360500)) x54 x55 (by fl_num (2) (10840125)) (lt_bound32 (by norm_num [abs_le]))
  have x57 := is_mul (c := (-40216260)) x52 x43 (by fl_num (2) (-10054065)) (lt_bound32 (by norm_num [abs_le]))
  have x58 := is_add (c := (3144240)) x56 x57 (by fl_num (-2) (12576960)) (lt_bound32 (by norm_num [abs_le]))
  have x59 := is_mul (c := (4197810)) x46 x22 (by fl_num (-1) (8395620)) (lt_bound32 (by norm_num [abs_le]))
  have x60 := is_add (c := (4197810)) z0 x59 (by fl_num (-1) (8395620)) (lt_bound32 (by norm_num [abs_le]))
  have x61 := is_mul (c := (36018448)) x49 x23 (by fl_tie (2) (9004612)) (lt_bound32 (by norm_num [abs_le]))
  have x62 := is_add (c := (40216256)) x60 x61 (by fl_tie (2) (10054064)) (lt_bound32 (by norm_num [abs_le]))
  have x63 := is_mul (c := (-40216260)) x52 x24 (by fl_num (2) (-10054065)) (lt_bound32 (by norm_num [abs_le]))
  have x64 := is_add (c := (-4)) x62 x63 (by fl_num (-21) (-8388608)) (lt_bound32 (by norm_num [abs_le]))
  have x65 := is_div (c := (-1398763 / 1099511627776)) x64 x58 (by norm_num) (by fl_num (-43) (-11190104)) (lt_bound32 (by norm_num [abs_le]))
  refine ⟨?_, ?_⟩
  · refine Eq.trans (lt_zero_flt x40.1) ?_
    exact decide_eq_true (lt_of_eq_of_lt x40.2 (by norm_num))
  · refine Eq.trans (lt_zero_flt x65.1) ?_
    exact decide_eq_true (lt_of_eq_of_lt x65.2 (by norm_num))

end FltTri
end vm
