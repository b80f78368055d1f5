import Verif.Model.Length
import Verif.Lemmas.FltGeom
import Verif.Lemmas.FltCmp
import Verif.Props.SqrtC
import Verif.Props.ModFlt
import Mathlib.Analysis.InnerProductSpace.PiL2

/-! Helper lemmas: length and normalisation of floating point vectors. -/

set_option linter.unusedSectionVars false
set_option linter.unusedSimpArgs false

namespace vm

variable {P : BinPar} {S : ℕ}

namespace BinPar

/-- `r` is a faithful root of `x`: no number of the format lies strictly between `r` and the exact root, and the exact root is
taken if it is a number of the format. -/
def Faithful (P : BinPar) (x r : ℚ) : Prop :=
  0 ≤ r ∧ ∀ y, P.fmt.rep y → 0 ≤ y → (y < r → y * y < x) ∧ (r < y → x < y * y)

theorem two_pow_k (k : ℤ) : (2 : ℚ) ^ k = 2 * P.u * 2 ^ (k + P.p - 1) := by
  unfold u
  rw [show k + (P.p : ℤ) - 1 = k + (P.p : ℤ) + (-1) by ring, zpow_add2, zpow_add2, zpow_neg, zpow_natCast]
  have : (2 : ℚ) ^ P.p ≠ 0 := by positivity
  field_simp

theorem Faithful.sq {x r : ℚ} (hx : P.fmt.rep x) (h0 : 0 ≤ x) (h : P.Faithful x r) :
    r ^ 2 ≤ x * (1 + 2 * P.u) ^ 2 ∧ x ≤ r ^ 2 * (1 + 2 * P.u) ^ 2 := by
  have hu0 := P.u_pos
  rcases h0.eq_or_lt with h1 | hpos
  · subst h1
    have : r = 0 := by
      by_contra hc
      have h2 := lt_of_le_of_ne h.1 (Ne.symm hc)
      have := (h.2 0 P.fmt.rep_zero le_rfl).1 h2
      linarith
    subst this; simp
  obtain ⟨k, A, N⟩ := P.exists_near hx.1 hpos
  have hu := N.u_pos
  have hA := N.A_pos
  have ha : (0 : ℚ) < A * 2 ^ k := by positivity
  have hb2 := N.two_b_lt hx
  have hra : P.fmt.rep (A * 2 ^ k) := ⟨N.rep_a, by rw [abs_of_pos ha]; linarith⟩
  have hrb : P.fmt.rep (A * 2 ^ k + 2 ^ k) := ⟨N.rep_b, by rw [abs_of_pos (by linarith)]; linarith⟩
  have h1 : A * 2 ^ k ≤ r := by
    by_contra hc
    have := (h.2 _ hra ha.le).2 (not_le.1 hc)
    have := N.le
    nlinarith
  have h2 : r ≤ A * 2 ^ k + 2 ^ k := by
    by_contra hc
    have := (h.2 _ hrb (by linarith)).1 (not_le.1 hc)
    have := N.lt
    nlinarith
  have h3 : (2 : ℚ) ^ k ≤ 2 * P.u * (A * 2 ^ k) := by
    calc (2 : ℚ) ^ k = 2 * P.u * 2 ^ (k + P.p - 1) := two_pow_k k
      _ ≤ 2 * P.u * (A * 2 ^ k) := mul_le_mul_of_nonneg_left N.lo_q (by positivity)
  constructor
  · calc r ^ 2 ≤ (A * 2 ^ k * (1 + 2 * P.u)) ^ 2 := by
          refine pow_le_pow_left₀ h.1 ?_ 2; linarith
      _ = (A * 2 ^ k) ^ 2 * (1 + 2 * P.u) ^ 2 := by ring
      _ ≤ x * (1 + 2 * P.u) ^ 2 := mul_le_mul_of_nonneg_right N.le (by positivity)
  · calc x ≤ (A * 2 ^ k + 2 ^ k) ^ 2 := N.lt.le
      _ ≤ (r * (1 + 2 * P.u)) ^ 2 := by
          refine pow_le_pow_left₀ (by positivity) ?_ 2; nlinarith
      _ = _ := by ring

end BinPar

theorem exactDot_self (v : Vec (Flt P.fmt) S) : exactDot v v = ∑ i, (v i).val ^ 2 := by
  unfold exactDot; simp only [sq]

theorem absDot_self (v : Vec (Flt P.fmt) S) : absDot v v = ∑ i, (v i).val ^ 2 := by
  unfold absDot; simp only [← sq]; exact Finset.sum_congr rfl fun i _ => abs_of_nonneg (sq_nonneg _)

theorem flt_dot_self_nonneg : ∀ {S : ℕ} (v : Vec (Flt P.fmt) S), (dot v v).isFinite → 0 ≤ (dot v v).val
  | 0, _, _ => le_rfl
  | S + 1, v, h => by
    rw [dot_succ'] at h ⊢
    rw [Flt.add_val h]
    obtain ⟨h1, h2⟩ := Flt.add_finite h
    refine P.fl_nonneg (add_nonneg (flt_dot_self_nonneg _ h1) ?_)
    rw [Flt.mul_val h2]
    exact P.fl_nonneg (mul_self_nonneg _)

/-- A squared length is not less than any of its terms, in spite of rounding. -/
theorem dot_self_ge : ∀ {S : ℕ} (v : Vec (Flt P.fmt) S), (dot v v).isFinite → ∀ i, P.fl ((v i).val * (v i).val) ≤ (dot v v).val
  | 0, _, _ => fun i => i.elim0
  | S + 1, v, h => by
    rw [dot_succ'] at h ⊢
    rw [Flt.add_val h]
    obtain ⟨h1, h2⟩ := Flt.add_finite h
    have h3 := flt_dot_self_nonneg _ h1
    have h4 : 0 ≤ (v (Fin.last S) * v (Fin.last S)).val := by
      rw [Flt.mul_val h2]; exact P.fl_nonneg (mul_self_nonneg _)
    intro i
    refine Fin.lastCases ?_ (fun j => ?_) i
    · refine P.le_fl_of_rep (P.rep_fl _) ?_
      rw [← Flt.mul_val h2]; linarith
    · refine (dot_self_ge _ h1 j).trans (P.le_fl_of_rep (Flt.rep_val _).1 ?_)
      linarith

/-- Relative error of the squared length if the squares do not underflow. -/
theorem squaredLength_err (v : Vec (Flt P.fmt) S) (h : (squaredLength v).isFinite)
    (hX : S * P.eta ≤ P.u * ∑ i, (v i).val ^ 2) :
    |(squaredLength v).val - ∑ i, (v i).val ^ 2| ≤ ((1 + P.u) ^ (S + 1) - 1) * ∑ i, (v i).val ^ 2 := by
  have h1 := dot_err v v h
  rw [exactDot_self, absDot_self] at h1
  refine h1.trans ?_
  unfold dotErr
  have hu := P.u_pos
  have : (0 : ℚ) < (1 + P.u) ^ S := by positivity
  rw [pow_succ]
  nlinarith

/-- Bound of the relative error of the length of a vector with `S` components: five units of rounding for `S = 3`. -/
def BinPar.lenErr (P : BinPar) (S : ℕ) : ℚ := (3 * S + 16) / 5 * P.u

theorem BinPar.lenErr_pos (P : BinPar) (S : ℕ) : 0 < P.lenErr S := by
  unfold BinPar.lenErr; have := P.u_pos; positivity

theorem pow_le_quad {w : ℚ} (h0 : 0 < w) : ∀ n : ℕ, n * w ≤ 1 / 30 → (1 + w) ^ n ≤ 1 + 26 / 25 * (n * w)
  | 0, _ => by simp
  | n + 1, h => by
    push_cast at h ⊢
    have h1 : (1 + w) ^ (n + 1) * (1 - (n + 1 : ℕ) * w) ≤ 1 := by
      have hb := one_add_mul_le_pow (a := -w) (by nlinarith [(Nat.cast_nonneg n : (0 : ℚ) ≤ n)]) (n + 1)
      have h2 : 1 - ((n + 1 : ℕ) : ℚ) * w ≤ (1 - w) ^ (n + 1) := by
        calc 1 - ((n + 1 : ℕ) : ℚ) * w = 1 + ((n + 1 : ℕ) : ℚ) * -w := by ring
          _ ≤ (1 + -w) ^ (n + 1) := hb
          _ = _ := by ring
      have hw : w ≤ 1 := by nlinarith [(Nat.cast_nonneg n : (0 : ℚ) ≤ n)]
      calc (1 + w) ^ (n + 1) * (1 - (n + 1 : ℕ) * w) ≤ (1 + w) ^ (n + 1) * (1 - w) ^ (n + 1) :=
            mul_le_mul_of_nonneg_left h2 (by positivity)
        _ = (1 - w ^ 2) ^ (n + 1) := by rw [← mul_pow]; congr 1; ring
        _ ≤ 1 := pow_le_one₀ (by nlinarith) (by nlinarith [sq_nonneg w])
    push_cast at h1
    set a := ((n : ℚ) + 1) * w
    have ha : 0 ≤ a := by positivity
    by_contra hc
    rw [not_le] at hc
    have : (1 + 26 / 25 * a) * (1 - a) < (1 + w) ^ (n + 1) * (1 - a) := mul_lt_mul_of_pos_right hc (by linarith)
    nlinarith

/-- The number `r` is a length of a vector with the sum of squares `X` up to a few units of rounding. -/
theorem flt_length_sq {X s r : ℚ} (hε : P.lenErr S ≤ 1 / 50) (h0 : 0 ≤ X)
    (hs : |s - X| ≤ ((1 + P.u) ^ (S + 1) - 1) * X)
    (h1 : r ^ 2 ≤ s * (1 + 2 * P.u) ^ 2) (h2 : s ≤ r ^ 2 * (1 + 2 * P.u) ^ 2) :
    ((1 - P.lenErr S) ^ 2 * X ≤ r ^ 2) ∧ r ^ 2 ≤ (1 + P.lenErr S) ^ 2 * X := by
  have hu0 := P.u_pos
  have hS : (0 : ℚ) ≤ S := Nat.cast_nonneg S
  set w := P.u
  obtain ⟨a, ha⟩ : ∃ a : ℚ, a = (S + 1) * w := ⟨_, rfl⟩
  have hE : P.lenErr S = 3 / 5 * a + 13 / 5 * w := by rw [ha]; unfold BinPar.lenErr; ring
  have ha0 : 0 < a := by rw [ha]; positivity
  have hpow : (1 + w) ^ (S + 1) ≤ 1 + 26 / 25 * a := by
    have := pow_le_quad hu0 (S + 1) (by push_cast; rw [← ha]; linarith)
    push_cast at this; rwa [← ha] at this
  rw [hE] at hε ⊢
  have hs' := abs_le.1 (hs.trans (mul_le_mul_of_nonneg_right (by linarith : (1 + w) ^ (S + 1) - 1 ≤ 26 / 25 * a) h0))
  have hsu : s ≤ (1 + 26 / 25 * a) * X := by linarith
  have hsl : (1 - 26 / 25 * a) * X ≤ s := by linarith
  clear_value w
  constructor
  · have hc : (1 - (3 / 5 * a + 13 / 5 * w)) ^ 2 * (1 + 2 * w) ^ 2 ≤ 1 - 26 / 25 * a := by
      have h3 : (1 - (3 / 5 * a + 13 / 5 * w)) * (1 + 2 * w) ≤ 1 - 3 / 5 * (a + w) := by nlinarith [mul_pos ha0 hu0]
      have h4 : 0 ≤ (1 - (3 / 5 * a + 13 / 5 * w)) * (1 + 2 * w) := mul_nonneg (by linarith) (by linarith)
      calc (1 - (3 / 5 * a + 13 / 5 * w)) ^ 2 * (1 + 2 * w) ^ 2 = ((1 - (3 / 5 * a + 13 / 5 * w)) * (1 + 2 * w)) ^ 2 := by ring
        _ ≤ (1 - 3 / 5 * (a + w)) ^ 2 := pow_le_pow_left₀ h4 h3 2
        _ ≤ _ := by nlinarith
    have h3 : (1 - (3 / 5 * a + 13 / 5 * w)) ^ 2 * X * (1 + 2 * w) ^ 2 ≤ r ^ 2 * (1 + 2 * w) ^ 2 := by
      calc _ = (1 - (3 / 5 * a + 13 / 5 * w)) ^ 2 * (1 + 2 * w) ^ 2 * X := by ring
        _ ≤ (1 - 26 / 25 * a) * X := mul_le_mul_of_nonneg_right hc h0
        _ ≤ _ := hsl.trans h2
    exact le_of_mul_le_mul_right h3 (by positivity)
  · have hc : (1 + 26 / 25 * a) * (1 + 2 * w) ^ 2 ≤ (1 + (3 / 5 * a + 13 / 5 * w)) ^ 2 := by
      nlinarith [mul_pos ha0 hu0, mul_pos (mul_pos ha0 hu0) hu0, sq_nonneg (3 / 5 * a + 13 / 5 * w)]
    calc r ^ 2 ≤ s * (1 + 2 * w) ^ 2 := h1
      _ ≤ (1 + 26 / 25 * a) * X * (1 + 2 * w) ^ 2 := mul_le_mul_of_nonneg_right hsu (by positivity)
      _ = (1 + 26 / 25 * a) * (1 + 2 * w) ^ 2 * X := by ring
      _ ≤ _ := mul_le_mul_of_nonneg_right hc h0

/-! ### Real estimates -/

theorem real_len {X r ε : ℚ} (hX : 0 ≤ X) (h0 : 0 ≤ r) (e0 : 0 ≤ ε) (e1 : ε ≤ 1) (h1 : (1 - ε) ^ 2 * X ≤ r ^ 2)
    (h2 : r ^ 2 ≤ (1 + ε) ^ 2 * X) : |(r : ℝ) - Real.sqrt X| ≤ ε * Real.sqrt X := by
  have hX' : (0 : ℝ) ≤ X := by exact_mod_cast hX
  have h0' : (0 : ℝ) ≤ r := by exact_mod_cast h0
  have e0' : (0 : ℝ) ≤ ε := by exact_mod_cast e0
  have e1' : (ε : ℝ) ≤ 1 := by exact_mod_cast e1
  have hL := Real.sqrt_nonneg (X : ℝ)
  have hLL := Real.sq_sqrt hX'
  have h1' : (1 - (ε : ℝ)) ^ 2 * X ≤ r ^ 2 := by exact_mod_cast h1
  have h2' : (r : ℝ) ^ 2 ≤ (1 + ε) ^ 2 * X := by exact_mod_cast h2
  set L := Real.sqrt (X : ℝ)
  rw [← hLL, ← mul_pow] at h1' h2'
  have h3 := (pow_le_pow_iff_left₀ (mul_nonneg (by linarith) hL) h0' two_ne_zero).1 h1'
  have h4 := (pow_le_pow_iff_left₀ h0' (mul_nonneg (by linarith) hL) two_ne_zero).1 h2'
  rw [abs_le]; constructor <;> linarith

/-- Bound of the relative error of the components of a normalised vector. -/
def BinPar.normErr (P : BinPar) (S : ℕ) : ℚ := 21 / 20 * P.lenErr S + 2 * P.u

theorem BinPar.eta_le (P : BinPar) : P.eta ≤ P.u ^ 2 / 2 := by
  have h := P.hmin
  unfold BinPar.eta BinPar.u
  calc (2 : ℚ) ^ (P.qmin - 1) ≤ 2 ^ (-(P.p : ℤ) + -(P.p : ℤ) + (-1)) := zpow_le_zpow_right₀ (by norm_num) (by linarith)
    _ = _ := by rw [BinPar.zpow_add2, BinPar.zpow_add2]; norm_num; ring

/-- A component divided by an approximate length and rounded. -/
theorem quot_err {L : ℝ} {x r : ℚ} (hε : P.lenErr S ≤ 1 / 50) (hL : 0 < L) (hr : |(r : ℝ) - L| ≤ P.lenErr S * L) :
    |(P.fl (x / r) : ℝ) - x / L| ≤ P.normErr S * (|(x : ℝ)| / L) + P.eta := by
  have hε0 := P.lenErr_pos S
  have hu0 := P.u_pos
  have hue : 3 * P.u ≤ P.lenErr S := by
    unfold BinPar.lenErr
    have : (0 : ℚ) ≤ S := Nat.cast_nonneg S
    nlinarith
  have h1 : |(P.fl (x / r) : ℝ) - x / r| ≤ P.u * (|(x : ℝ)| / r) + P.eta := by
    have hr0 : (0 : ℝ) < r := by
      have := (abs_le.1 hr).1
      have : (P.lenErr S : ℝ) ≤ 1 / 50 := by have := (Rat.cast_le (K := ℝ)).2 hε; push_cast at this; exact this
      nlinarith
    have hr0' : (0 : ℚ) < r := by exact_mod_cast hr0
    have := BinPar.fl_err_u (P := P) (x / r)
    rw [abs_div, abs_of_pos hr0'] at this
    exact_mod_cast this
  have hε' : (P.lenErr S : ℝ) ≤ 1 / 50 := by have := (Rat.cast_le (K := ℝ)).2 hε; push_cast at this; exact this
  have hε0' : (0 : ℝ) < P.lenErr S := by exact_mod_cast hε0
  have hu0' : (0 : ℝ) < P.u := by exact_mod_cast hu0
  have hue' : 3 * (P.u : ℝ) ≤ P.lenErr S := by exact_mod_cast hue
  have hδ : (P.normErr S : ℝ) = 21 / 20 * P.lenErr S + 2 * P.u := by unfold BinPar.normErr; push_cast; ring
  rw [hδ]
  generalize (P.lenErr S : ℝ) = ε at *
  generalize (P.u : ℝ) = w at *
  generalize (P.eta : ℝ) = e at *
  generalize (P.fl (x / r) : ℝ) = f at *
  generalize (r : ℝ) = r' at *
  generalize (x : ℝ) = x' at *
  rw [abs_le] at hr
  have hr0 : 0 < r' := by nlinarith
  have h2 : |x' / r' - x' / L| ≤ ε * (|x'| / r') := by
    have : x' / r' - x' / L = x' * (L - r') / (r' * L) := by field_simp
    rw [this, abs_div, abs_mul, abs_of_pos (mul_pos hr0 hL), div_le_iff₀ (mul_pos hr0 hL)]
    have h3 : |L - r'| ≤ ε * L := by rw [abs_le]; constructor <;> linarith
    calc |x'| * |L - r'| ≤ |x'| * (ε * L) := mul_le_mul_of_nonneg_left h3 (abs_nonneg _)
      _ = _ := by field_simp
  have h3 : |x'| / r' * (1 - ε) ≤ |x'| / L := by
    rw [div_mul_eq_mul_div, div_le_div_iff₀ hr0 hL]
    have := mul_le_mul_of_nonneg_left hr.1 (abs_nonneg x')
    nlinarith
  have hA : 0 ≤ |x'| / r' := by positivity
  generalize |x'| / r' = A at *
  generalize |x'| / L = B at *
  have h4 : (ε + w) * A ≤ (21 / 20 * ε + 2 * w) * B := by
    have h5 : (ε + w) ≤ (21 / 20 * ε + 2 * w) * (1 - ε) := by nlinarith
    calc (ε + w) * A ≤ (21 / 20 * ε + 2 * w) * (1 - ε) * A := mul_le_mul_of_nonneg_right h5 hA
      _ = (21 / 20 * ε + 2 * w) * (A * (1 - ε)) := by ring
      _ ≤ _ := mul_le_mul_of_nonneg_left h3 (by positivity)
  calc |f - x' / L| = |(f - x' / r') + (x' / r' - x' / L)| := by congr 1; ring
    _ ≤ |f - x' / r'| + |x' / r' - x' / L| := abs_add_le _ _
    _ ≤ _ := by linarith

/-- A vector close to a unit vector in every component. -/
theorem l2_close {f g : Fin S → ℝ} {δ e : ℝ} (hf : ∑ i, f i ^ 2 = 1) (h0 : 0 ≤ δ) (he : 0 ≤ e)
    (h : ∀ i, |g i - f i| ≤ δ * |f i| + e) :
    ‖WithLp.toLp 2 g - WithLp.toLp 2 f‖ ≤ δ + S * e := by
  rw [EuclideanSpace.norm_eq]
  apply Real.sqrt_le_iff.2
  refine ⟨by positivity, ?_⟩
  have h1 : ∀ i, |f i| ≤ 1 := by
    intro i
    have : f i ^ 2 ≤ 1 := by
      rw [← hf]; exact Finset.single_le_sum (f := fun i => f i ^ 2) (fun _ _ => sq_nonneg _) (Finset.mem_univ i)
    exact (sq_le_one_iff_abs_le_one _).1 this
  have h2 : ∀ i, ‖(WithLp.toLp 2 g - WithLp.toLp 2 f : EuclideanSpace ℝ (Fin S)) i‖ ^ 2 ≤ δ ^ 2 * f i ^ 2 + (2 * δ * e + e ^ 2) := by
    intro i
    have e1 : ‖(WithLp.toLp 2 g - WithLp.toLp 2 f : EuclideanSpace ℝ (Fin S)) i‖ = |g i - f i| := rfl
    rw [e1]
    have h3 := pow_le_pow_left₀ (abs_nonneg _) (h i) 2
    have h4 := h1 i
    have h5 := sq_abs (f i)
    have h6 : 0 ≤ δ * e := by positivity
    nlinarith [abs_nonneg (f i)]
  refine (Finset.sum_le_sum fun i _ => h2 i).trans ?_
  rw [Finset.sum_add_distrib, ← Finset.mul_sum, hf]
  simp only [Finset.sum_const, Finset.card_univ, Fintype.card_fin, nsmul_eq_mul]
  rcases Nat.eq_zero_or_pos S with h7 | h7
  · subst h7; simp
  · have : (1 : ℝ) ≤ S := by exact_mod_cast h7
    have h8 : S * e ^ 2 ≤ S * e ^ 2 * S := le_mul_of_one_le_right (by positivity) this
    calc δ ^ 2 * 1 + S * (2 * δ * e + e ^ 2) = δ ^ 2 + 2 * δ * (S * e) + S * e ^ 2 := by ring
      _ ≤ δ ^ 2 + 2 * δ * (S * e) + S * e ^ 2 * S := by linarith
      _ = _ := by ring

theorem toLp_norm (f : Fin S → ℝ) : ‖(WithLp.toLp 2 f : EuclideanSpace ℝ (Fin S))‖ = Real.sqrt (∑ i, f i ^ 2) := by
  rw [EuclideanSpace.norm_eq]
  congr 1
  exact Finset.sum_congr rfl fun i _ => by rw [show ‖(WithLp.toLp 2 f : EuclideanSpace ℝ (Fin S)) i‖ = |f i| from rfl, sq_abs]

theorem toLp_inner (f g : Fin S → ℝ) : inner ℝ (WithLp.toLp 2 f : EuclideanSpace ℝ (Fin S)) (WithLp.toLp 2 g) = ∑ i, f i * g i := by
  rw [PiLp.inner_apply]
  exact Finset.sum_congr rfl fun i _ => by simp [mul_comm]

theorem l2_norm {f g : Fin S → ℝ} {d : ℝ} (hf : ∑ i, f i ^ 2 = 1)
    (h : ‖WithLp.toLp 2 g - WithLp.toLp 2 f‖ ≤ d) : |Real.sqrt (∑ i, g i ^ 2) - 1| ≤ d := by
  have h1 := abs_norm_sub_norm_le (WithLp.toLp 2 g : EuclideanSpace ℝ (Fin S)) (WithLp.toLp 2 f)
  rw [toLp_norm, toLp_norm, hf, Real.sqrt_one] at h1
  exact h1.trans h

/-- The inner product of two vectors that are close to a unit vector and to a multiple of it by 1 or -1. -/
theorem l2_inner {f g k : Fin S → ℝ} {d c : ℝ} (hf : ∑ i, f i ^ 2 = 1) (hc : |c| = 1) (hd : 0 ≤ d)
    (h : ‖WithLp.toLp 2 g - WithLp.toLp 2 f‖ ≤ d) (h' : ‖WithLp.toLp 2 k - WithLp.toLp 2 (fun i => c * f i)‖ ≤ d) :
    |∑ i, g i * k i - c| ≤ 2 * d + d ^ 2 := by
  set F : EuclideanSpace ℝ (Fin S) := WithLp.toLp 2 f with hF
  set G : EuclideanSpace ℝ (Fin S) := WithLp.toLp 2 g with hG
  set K : EuclideanSpace ℝ (Fin S) := WithLp.toLp 2 k with hK
  have e1 : (WithLp.toLp 2 (fun i => c * f i) : EuclideanSpace ℝ (Fin S)) = c • F := rfl
  rw [e1] at h'
  have nF : ‖F‖ = 1 := by rw [hF, toLp_norm, hf, Real.sqrt_one]
  have e2 : ∑ i, g i * k i - c = inner ℝ F (K - c • F) + c * inner ℝ (G - F) F + inner ℝ (G - F) (K - c • F) := by
    rw [← toLp_inner, ← hG, ← hK]
    have hFF : inner ℝ F F = (1 : ℝ) := by rw [real_inner_self_eq_norm_sq, nF]; norm_num
    simp only [inner_sub_left, inner_sub_right, inner_smul_left, inner_smul_right, hFF, conj_trivial]
    ring
  rw [e2]
  have i1 := abs_real_inner_le_norm F (K - c • F)
  have i2 := abs_real_inner_le_norm (G - F) F
  have i3 := abs_real_inner_le_norm (G - F) (K - c • F)
  rw [nF] at i1 i2
  have i4 : ‖G - F‖ * ‖K - c • F‖ ≤ d * d := mul_le_mul h h' (norm_nonneg _) hd
  have i5 : |c * inner ℝ (G - F) F| ≤ d := by rw [abs_mul, hc]; linarith
  calc _ ≤ |inner ℝ F (K - c • F) + c * inner ℝ (G - F) F| + |inner ℝ (G - F) (K - c • F)| := abs_add_le _ _
    _ ≤ |inner ℝ F (K - c • F)| + |c * inner ℝ (G - F) F| + |inner ℝ (G - F) (K - c • F)| := by
        have := abs_add_le (inner ℝ F (K - c • F)) (c * inner ℝ (G - F) F); linarith
    _ ≤ _ := by nlinarith

end vm
