import Verif.Lemmas.FltGeom
import Verif.Lemmas.FltError
import Verif.Props.FltRayBBox

/-! Relative errors of products and quotients in IEEE arithmetic, with bounds by powers of two. -/

set_option linter.unusedSectionVars false
set_option linter.unusedSimpArgs false

namespace vm
open BinPar

/-- `x` is finite, lies between two powers of two, and differs from `y` by at most `k` rounding errors. -/
structure Good {P : BinPar} (a b : ℤ) (k : ℕ) (x : Flt P.fmt) (y : ℚ) : Prop where
  fin : x.isFinite
  lo : 2 ^ a ≤ |x.val|
  hi : |x.val| ≤ 2 ^ b
  rel : ∃ θ : ℚ, x.val = y * θ ∧ (1 - P.u) ^ k ≤ θ ∧ θ * (1 - P.u) ^ k ≤ 1

namespace Good
variable {P : BinPar} {a b a' b' : ℤ} {k k' : ℕ} {x x' : Flt P.fmt} {y y' : ℚ}

theorem u_le (P : BinPar) : P.u ≤ 1 / 8 := by
  have h := P.hp
  unfold BinPar.u
  calc (2 : ℚ) ^ (-(P.p : ℤ)) ≤ 2 ^ (-3 : ℤ) := zpow_le_zpow_right₀ (by norm_num) (by omega)
    _ = 1 / 8 := by norm_num

theorem v_pos (P : BinPar) : 0 < 1 - P.u := by linarith [u_le P]

theorem v_le (P : BinPar) : 1 - P.u ≤ 1 := by linarith [P.u_pos]

theorem pow_pos' (P : BinPar) (k : ℕ) : 0 < (1 - P.u) ^ k := pow_pos (v_pos P) k

theorem rep_two {k : ℤ} (hk : P.qmin ≤ k) : P.Rep (2 ^ k) :=
  ⟨1, k, by simp, by simpa using one_lt_pow₀ (by norm_num : (1 : ℤ) < 2) (by have := P.hp; omega), hk⟩

theorem exact (hf : x.isFinite) (hlo : 2 ^ a ≤ |x.val|) (hhi : |x.val| ≤ 2 ^ b) : Good a b 0 x x.val :=
  ⟨hf, hlo, hhi, 1, by ring, by simp, by simp⟩

theorem mono (h : Good a b k x y) (hab : a' ≤ a) (hb : b ≤ b') : Good a' b' k x y :=
  ⟨h.fin, (zpow_le_zpow_right₀ (by norm_num) hab).trans h.lo, h.hi.trans (zpow_le_zpow_right₀ (by norm_num) hb), h.rel⟩

theorem weaken (h : Good a b k x y) (hk : k ≤ k') : Good a b k' x y := by
  obtain ⟨θ, e, h1, h2⟩ := h.rel
  have p1 : (1 - P.u) ^ k' ≤ (1 - P.u) ^ k := pow_le_pow_of_le_one (v_pos P).le (v_le P) hk
  have t0 : 0 ≤ θ := (pow_pos' P k).le.trans h1
  exact ⟨h.fin, h.lo, h.hi, θ, e, p1.trans h1, (mul_le_mul_of_nonneg_left p1 t0).trans h2⟩

theorem neg (h : Good a b k x y) : Good a b k (-x) (-y) := by
  obtain ⟨θ, e, h1, h2⟩ := h.rel
  refine ⟨Flt.neg_finite.2 h.fin, by rw [Flt.neg_val, abs_neg]; exact h.lo, by rw [Flt.neg_val, abs_neg]; exact h.hi, θ, ?_, h1, h2⟩
  rw [Flt.neg_val, e]; ring

/-- Rounding keeps bounds by powers of two and adds one error. -/
theorem round {q : ℚ} (hlo : 2 ^ a ≤ |q|) (hhi : |q| ≤ 2 ^ b) (ha : P.qmin + P.p - 1 ≤ a) (hb : b < P.p + P.qmax)
    (rel : ∃ θ : ℚ, q = y * θ ∧ (1 - P.u) ^ k ≤ θ ∧ θ * (1 - P.u) ^ k ≤ 1) : Good a b (k + 1) (Flt.round q : Flt P.fmt) y := by
  have hp := P.hp
  have e := P.fl_err_rel (q := q) ((zpow_le_zpow_right₀ (by norm_num) ha).trans hlo)
  change |P.fl q - q| ≤ P.u * |q| at e
  have hab : a ≤ b := by
    by_contra hc
    have := zpow_lt_zpow_right₀ (by norm_num : (1 : ℚ) < 2) (not_le.1 hc)
    linarith
  have q0 : 0 < |q| := lt_of_lt_of_le (two_zpow_pos a) hlo
  have qn : q ≠ 0 := abs_pos.1 q0
  have r1 : P.Rep (2 ^ a) := rep_two (by omega)
  have r2 : P.Rep (2 ^ b) := rep_two (by omega)
  have habs : |P.fl q| = P.fl |q| := by
    rcases le_total 0 q with h | h
    · rw [abs_of_nonneg h, abs_of_nonneg (P.fl_nonneg h)]
    · rw [abs_of_nonpos h, P.fl_neg, abs_of_nonpos]
      have := P.fl_mono h
      rwa [P.fl_zero] at this
  have lo' : 2 ^ a ≤ |P.fl q| := by rw [habs, ← P.fl_rep r1]; exact P.fl_mono hlo
  have hi' : |P.fl q| ≤ 2 ^ b := by rw [habs, ← P.fl_rep r2]; exact P.fl_mono hhi
  have hf : (Flt.round q : Flt P.fmt).isFinite := Flt.round_finite.2 (lt_of_le_of_lt hi' (by
    unfold BinPar.bound
    exact zpow_lt_zpow_right₀ (by norm_num) hb))
  have hv : (Flt.round q : Flt P.fmt).val = P.fl q := Flt.round_val hf
  refine ⟨hf, by rw [hv]; exact lo', by rw [hv]; exact hi', ?_⟩
  obtain ⟨θ, eq, h1, h2⟩ := rel
  have t0 : 0 < θ := lt_of_lt_of_le (pow_pos' P k) h1
  have ed := abs_le.1 (show |(P.fl q - q) / q| ≤ P.u by rw [abs_div, div_le_iff₀ q0]; exact e)
  refine ⟨θ * (1 + (P.fl q - q) / q), ?_, ?_, ?_⟩
  · rw [hv, ← mul_assoc, ← eq]; field_simp; ring
  · rw [pow_succ]
    exact mul_le_mul h1 (by linarith) (v_pos P).le t0.le
  · have h3 : (1 + (P.fl q - q) / q) * (1 - P.u) ≤ 1 := by
      have h4 := mul_le_mul_of_nonneg_right (by linarith : 1 + (P.fl q - q) / q ≤ 1 + P.u) (v_pos P).le
      nlinarith [sq_nonneg P.u]
    have h5 : 0 ≤ (1 + (P.fl q - q) / q) * (1 - P.u) := mul_nonneg (by linarith [u_le P]) (v_pos P).le
    calc θ * (1 + (P.fl q - q) / q) * (1 - P.u) ^ (k + 1) = (θ * (1 - P.u) ^ k) * ((1 + (P.fl q - q) / q) * (1 - P.u)) := by rw [pow_succ]; ring
      _ ≤ 1 * 1 := mul_le_mul h2 h3 h5 (by norm_num)
      _ = 1 := one_mul 1

theorem mul (h : Good a b k x y) (h' : Good a' b' k' x' y') (ha : P.qmin + P.p - 1 ≤ a + a') (hb : b + b' < P.p + P.qmax) :
    Good (a + a') (b + b') (k + k' + 1) (x * x') (y * y') := by
  rw [Flt.mul_eq h.fin h'.fin]
  refine round ?_ ?_ ha hb ?_
  · rw [zpow_add2, abs_mul]; exact mul_le_mul h.lo h'.lo (two_zpow_pos _).le (abs_nonneg _)
  · rw [zpow_add2, abs_mul]; exact mul_le_mul h.hi h'.hi (abs_nonneg _) (two_zpow_pos _).le
  · obtain ⟨θ, e, h1, h2⟩ := h.rel
    obtain ⟨θ', e', h1', h2'⟩ := h'.rel
    have t0 : 0 ≤ θ := (pow_pos' P k).le.trans h1
    have t0' : 0 ≤ θ' := (pow_pos' P k').le.trans h1'
    refine ⟨θ * θ', by rw [e, e']; ring, ?_, ?_⟩
    · rw [pow_add]; exact mul_le_mul h1 h1' (pow_pos' P k').le t0
    · rw [pow_add]
      calc θ * θ' * ((1 - P.u) ^ k * (1 - P.u) ^ k') = (θ * (1 - P.u) ^ k) * (θ' * (1 - P.u) ^ k') := by ring
        _ ≤ 1 * 1 := mul_le_mul h2 h2' (mul_nonneg t0' (pow_pos' P k').le) (by norm_num)
        _ = 1 := one_mul 1

theorem div (h : Good a b k x y) (h' : Good a' b' k' x' y') (ha : P.qmin + P.p - 1 ≤ a - b') (hb : b - a' < P.p + P.qmax) :
    Good (a - b') (b - a') (k + k' + 1) (x / x') (y / y') := by
  have x0 : 0 < |x'.val| := lt_of_lt_of_le (two_zpow_pos a') h'.lo
  have xn : x'.val ≠ 0 := abs_pos.1 x0
  rw [fin_div_fin h.fin h'.fin xn]
  refine round ?_ ?_ ha hb ?_
  · rw [abs_div, le_div_iff₀ x0]
    refine (mul_le_mul_of_nonneg_left h'.hi (two_zpow_pos _).le).trans ?_
    rw [← zpow_add2, sub_add_cancel]; exact h.lo
  · rw [abs_div, div_le_iff₀ x0]
    refine le_trans ?_ (mul_le_mul_of_nonneg_left h'.lo (two_zpow_pos _).le)
    rw [← zpow_add2, sub_add_cancel]; exact h.hi
  · obtain ⟨θ, e, h1, h2⟩ := h.rel
    obtain ⟨θ', e', h1', h2'⟩ := h'.rel
    have t0 : 0 ≤ θ := (pow_pos' P k).le.trans h1
    have t0' : 0 < θ' := lt_of_lt_of_le (pow_pos' P k') h1'
    refine ⟨θ / θ', by rw [e, e']; field_simp, ?_, ?_⟩
    · rw [pow_add, le_div_iff₀ t0']
      calc (1 - P.u) ^ k * (1 - P.u) ^ k' * θ' = (1 - P.u) ^ k * (θ' * (1 - P.u) ^ k') := by ring
        _ ≤ θ * 1 := mul_le_mul h1 h2' (mul_nonneg t0'.le (pow_pos' P k').le) t0
        _ = θ := mul_one θ
    · rw [pow_add, div_mul_eq_mul_div, div_le_one t0']
      calc θ * ((1 - P.u) ^ k * (1 - P.u) ^ k') = (θ * (1 - P.u) ^ k) * (1 - P.u) ^ k' := by ring
        _ ≤ 1 * θ' := mul_le_mul h2 h1' (pow_pos' P k').le (by norm_num)
        _ = θ' := one_mul θ'

/-- A number with a relative rounding error. -/
theorem approx (hf : x.isFinite) (hlo : 2 ^ a ≤ |x.val|) (hhi : |x.val| ≤ 2 ^ b) (h0 : y ≠ 0) (he : |x.val - y| ≤ P.u * |y|) : Good a b 1 x y := by
  have y0 := abs_pos.2 h0
  have ed := abs_le.1 (show |(x.val - y) / y| ≤ P.u by rw [abs_div, div_le_iff₀ y0]; exact he)
  refine ⟨hf, hlo, hhi, 1 + (x.val - y) / y, by field_simp; ring, by rw [pow_one]; linarith, ?_⟩
  rw [pow_one]
  have h4 := mul_le_mul_of_nonneg_right (by linarith : 1 + (x.val - y) / y ≤ 1 + P.u) (v_pos P).le
  nlinarith [sq_nonneg P.u]

/-- The relative error. -/
theorem err (h : Good a b k x y) (hk : (k + 1) * k * P.u ≤ 1) : |x.val - y| ≤ (k + 1) * P.u * |y| := by
  obtain ⟨θ, e, h1, h2⟩ := h.rel
  have u0 := P.u_pos
  have b1 : 1 - k * P.u ≤ (1 - P.u) ^ k := by
    have := one_add_mul_le_pow (show (-2 : ℚ) ≤ -P.u by linarith [u_le P]) k
    rw [show (1 : ℚ) + -P.u = 1 - P.u by ring] at this
    linarith
  have t0 : 0 < θ := lt_of_lt_of_le (pow_pos' P k) h1
  have k0 : (0 : ℚ) ≤ k := by positivity
  have b2 : θ * (1 - k * P.u) ≤ 1 := (mul_le_mul_of_nonneg_left b1 t0.le).trans h2
  have ku : 0 ≤ k * P.u := by positivity
  have b3 : 0 < 1 - k * P.u := by
    rcases Nat.eq_zero_or_pos k with h | h
    · rw [h]; norm_num
    · have h1 : (1 : ℚ) ≤ k := by exact_mod_cast h
      nlinarith
  have b4 : θ ≤ 1 + (k + 1) * P.u := by
    by_contra hc
    rw [not_le] at hc
    have h5 := mul_lt_mul_of_pos_right hc b3
    have h6 : 1 ≤ (1 + (k + 1) * P.u) * (1 - k * P.u) := by
      have h7 := mul_le_mul_of_nonneg_left hk u0.le
      linarith [h7]
    linarith
  rw [e, show y * θ - y = (θ - 1) * y by ring, abs_mul]
  refine mul_le_mul_of_nonneg_right (abs_le.2 ⟨by nlinarith, by linarith⟩) (abs_nonneg _)

end Good

end vm
