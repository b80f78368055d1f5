import Verif.Lemmas.FltWiden
import Verif.Lemmas.FltConst
import Verif.Lemmas.FltQuat
import Verif.Props.FltLength
import Verif.Props.FltPlane
import Verif.Model.Geom
import Verif.Model.BBox
import Verif.Lemmas.FltScale
import Verif.Lemmas.FltCmp
import Verif.Model.Mat

/-! C161: vectors of `float` numbers, converted to `double` before a cross product, a dot product or a determinant. -/

set_option linter.unusedSectionVars false
set_option linter.unusedSimpArgs false

namespace vm
open FltWd FltCast

/-- The `double` number `r` is the rational number `q` correctly rounded: no `double` number is closer, the relative error is at most `2 ^ -53`, and
the sign is that of `q`. -/
def CorrectlyRounded (r : Flt binary64.fmt) (q : ℚ) : Prop :=
  r.isFinite ∧ (∀ y : Flt binary64.fmt, y.isFinite → |r.val - q| ≤ |y.val - q|) ∧ |r.val - q| ≤ 2 ^ (-53 : ℤ) * |q| ∧
  (0 < r.val ↔ 0 < q) ∧ (r.val < 0 ↔ q < 0) ∧ (r.val = 0 ↔ q = 0)

theorem FltWd.correct {r : Flt binary64.fmt} {q : ℚ} (h : r.isFinite ∧ r.val = binary64.fl q) (he : |binary64.fl q - q| ≤ 2 ^ (-53 : ℤ) * |q|)
    {m : ℤ} (hm : q = m * 2 ^ (-298 : ℤ)) : CorrectlyRounded r q := by
  have hp : 0 < q → 0 < binary64.fl q := sign_pos hm
  have hn : q < 0 → binary64.fl q < 0 := fun h0 => by
    have := sign_pos (q := -q) (m := -m) (by rw [hm, Int.cast_neg, neg_mul]) (by linarith)
    rw [binary64.fl_neg] at this
    linarith
  have hz : q = 0 → binary64.fl q = 0 := fun h0 => by rw [h0, binary64.fl_zero]
  refine ⟨h.1, ?_, ?_, ?_, ?_, ?_⟩
  · intro y hy
    rw [h.2]
    refine binary64.fl_nearest ?_ q
    rcases y with _ | _ | _ | ⟨a, ha⟩
    · exact absurd hy (by simp [Flt.isFinite])
    · exact absurd hy (by simp [Flt.isFinite])
    · exact absurd hy (by simp [Flt.isFinite])
    · exact ha.1
  · rw [h.2]; exact he
  all_goals rw [h.2]; rcases lt_trichotomy q 0 with h0 | h0 | h0
  · exact ⟨fun t => absurd t (by linarith [hn h0]), fun t => absurd t (by linarith)⟩
  · exact ⟨fun t => absurd t (by linarith [hz h0]), fun t => absurd t (by linarith)⟩
  · exact ⟨fun _ => h0, fun _ => hp h0⟩
  · exact ⟨fun _ => h0, fun _ => hn h0⟩
  · exact ⟨fun t => absurd t (by linarith [hz h0]), fun t => absurd t (by linarith)⟩
  · exact ⟨fun t => absurd t (by linarith [hp h0]), fun t => absurd t (by linarith)⟩
  · exact ⟨fun t => absurd t (by linarith [hn h0]), fun t => absurd t (by linarith)⟩
  · exact ⟨fun _ => h0, fun _ => hz h0⟩
  · exact ⟨fun t => absurd t (by linarith [hp h0]), fun t => absurd t (by linarith)⟩

theorem FltWd.sub {x y z w : Flt binary32.fmt} (hx : x.isFinite) (hy : y.isFinite) (hz : z.isFinite) (hw : w.isFinite) :
    CorrectlyRounded (D x * D y - D z * D w) (x.val * y.val - z.val * w.val) := by
  obtain ⟨m, hm⟩ := multiple hx hy
  obtain ⟨n, hn⟩ := multiple hz hw
  have l1 := prod_le hx hy
  have l2 := prod_le hz hw
  have hb : |x.val * y.val - z.val * w.val| ≤ 2 ^ 258 := by
    have e : (2 : ℚ) ^ 258 = 4 * 2 ^ 256 := by rw [show 258 = 2 + 256 by rfl, pow_add]; norm_num
    rw [e]
    have := abs_sub (x.val * y.val) (z.val * w.val)
    have p : (0 : ℚ) ≤ 2 ^ 256 := by positivity
    linarith
  refine FltWd.correct (m := m - n) (is_sub (P := binary64) (mul hx hy) (mul hz hw) rfl (fl_lt_bound (big hb))) ?_ ?_
  · exact BinPar.fl_sub_err (BinPar.double_mul BinPar.wide_32_64 (rep hx).1 (rep hy).1) (BinPar.double_mul BinPar.wide_32_64 (rep hz).1 (rep hw).1)
  · rw [hm, hn, Int.cast_sub, sub_mul]

theorem FltWd.add {x y z w : Flt binary32.fmt} (hx : x.isFinite) (hy : y.isFinite) (hz : z.isFinite) (hw : w.isFinite) :
    CorrectlyRounded (D x * D y + D z * D w) (x.val * y.val + z.val * w.val) := by
  obtain ⟨m, hm⟩ := multiple hx hy
  obtain ⟨n, hn⟩ := multiple hz hw
  have l1 := prod_le hx hy
  have l2 := prod_le hz hw
  have hb : |x.val * y.val + z.val * w.val| ≤ 2 ^ 258 := by
    have e : (2 : ℚ) ^ 258 = 4 * 2 ^ 256 := by rw [show 258 = 2 + 256 by rfl, pow_add]; norm_num
    rw [e]
    have := abs_add_le (x.val * y.val) (z.val * w.val)
    have p : (0 : ℚ) ≤ 2 ^ 256 := by positivity
    linarith
  refine FltWd.correct (m := m + n) (is_add (P := binary64) (mul hx hy) (mul hz hw) rfl (fl_lt_bound (big hb))) ?_ ?_
  · exact BinPar.fl_add_err (BinPar.double_mul BinPar.wide_32_64 (rep hx).1 (rep hy).1) (BinPar.double_mul BinPar.wide_32_64 (rep hz).1 (rep hw).1)
  · rw [hm, hn, Int.cast_add, add_mul]

/-- Every component of the cross product of two finite `float` vectors, computed in `double`, is the exact component correctly rounded, with the exact
sign: no overflow, no underflow, no cancellation. -/
theorem C161_cross (v w : Vec (Flt binary32.fmt) 3) (hv : ∀ i, (v i).isFinite) (hw : ∀ i, (w i).isFinite) :
    let c := cross (vconvert Flt.cast 3 v : Vec (Flt binary64.fmt) 3) (vconvert Flt.cast 3 w)
    CorrectlyRounded (c 0) ((v 1).val * (w 2).val - (v 2).val * (w 1).val) ∧
    CorrectlyRounded (c 1) ((v 2).val * (w 0).val - (v 0).val * (w 2).val) ∧
    CorrectlyRounded (c 2) ((v 0).val * (w 1).val - (v 1).val * (w 0).val) :=
  ⟨FltWd.sub (hv 1) (hw 2) (hv 2) (hw 1), FltWd.sub (hv 2) (hw 0) (hv 0) (hw 2), FltWd.sub (hv 0) (hw 1) (hv 1) (hw 0)⟩

/-- So the cross product computed in `double` is zero exactly if the vectors are parallel. -/
theorem C161_parallel (v w : Vec (Flt binary32.fmt) 3) (hv : ∀ i, (v i).isFinite) (hw : ∀ i, (w i).isFinite) (h0 : ∃ i, (v i).val ≠ 0) :
    (∀ i, (cross (vconvert Flt.cast 3 v : Vec (Flt binary64.fmt) 3) (vconvert Flt.cast 3 w) i).val = 0) ↔
    ∃ t : ℚ, ∀ i, (w i).val = t * (v i).val := by
  obtain ⟨a, b, c⟩ := C161_cross v w hv hw
  have a0 := a.2.2.2.2.2
  have b0 := b.2.2.2.2.2
  have c0 := c.2.2.2.2.2
  have all : (∀ i, (cross (vconvert Flt.cast 3 v : Vec (Flt binary64.fmt) 3) (vconvert Flt.cast 3 w) i).val = 0) ↔
      (v 1).val * (w 2).val - (v 2).val * (w 1).val = 0 ∧ (v 2).val * (w 0).val - (v 0).val * (w 2).val = 0 ∧
      (v 0).val * (w 1).val - (v 1).val * (w 0).val = 0 := by
    rw [← a0, ← b0, ← c0, Fin.forall_fin_succ, Fin.forall_fin_succ, Fin.forall_fin_succ]
    exact ⟨fun h => ⟨h.1, h.2.1, h.2.2.1⟩, fun h => ⟨h.1, h.2.1, h.2.2, fun i => i.elim0⟩⟩
  rw [all]
  constructor
  · rintro ⟨e0, e1, e2⟩
    obtain ⟨i, hi⟩ := h0
    refine ⟨(w i).val / (v i).val, fun j => ?_⟩
    rw [div_mul_eq_mul_div, eq_div_iff hi]
    fin_cases i <;> fin_cases j <;> simp only [Fin.zero_eta, Fin.mk_one, Fin.reduceFinMk, Fin.isValue] <;> linarith
  · rintro ⟨t, h⟩
    rw [h 0, h 1, h 2]
    exact ⟨by ring, by ring, by ring⟩

/-- The dot product of two finite `float` vectors with two components, computed in `double`, is the exact one correctly rounded, with the exact sign. -/
theorem C161_dot (v w : Vec (Flt binary32.fmt) 2) (hv : ∀ i, (v i).isFinite) (hw : ∀ i, (w i).isFinite) :
    CorrectlyRounded (dot (vconvert Flt.cast 2 v : Vec (Flt binary64.fmt) 2) (vconvert Flt.cast 2 w))
      ((v 0).val * (w 0).val + (v 1).val * (w 1).val) := by
  have e : dot (vconvert Flt.cast 2 v : Vec (Flt binary64.fmt) 2) (vconvert Flt.cast 2 w) = D (v 0) * D (w 0) + D (v 1) * D (w 1) := by
    unfold dot
    rw [Fin.foldl_succ_last, Fin.foldl_succ_last, Fin.foldl_zero]
    show 0 + D (v 0) * D (w 0) + D (v 1) * D (w 1) = _
    rw [Flt.zero_add']
  rw [e]
  exact FltWd.add (hv 0) (hw 0) (hv 1) (hw 1)

/-- The determinant of a 2x2 matrix of finite `float` numbers, computed in `double`, is the exact one correctly rounded; it is zero exactly for a
singular matrix. -/
theorem C161_determinant (m : Mat (Flt binary32.fmt) 2 2) (hm : ∀ c r, (m c r).isFinite) :
    CorrectlyRounded (computeDeterminant 1 (mconvert Flt.cast m : Mat (Flt binary64.fmt) 2 2))
      ((m 0 0).val * (m 1 1).val - (m 1 0).val * (m 0 1).val) :=
  FltWd.sub (hm 0 0) (hm 1 1) (hm 1 0) (hm 0 1)

theorem FltWd.dim {S : ℕ} (hS : S ≤ 2 ^ 40) : (S : ℚ) * binary64.u ≤ 1 / 2 ^ 13 ∧ binary64.lenErr S ≤ 1 / 50 := by
  have h : (S : ℚ) ≤ 2 ^ 40 := by exact_mod_cast hS
  have hu : binary64.u = 1 / 2 ^ 53 := by norm_num [BinPar.u, binary64]
  unfold BinPar.lenErr
  rw [hu]
  constructor <;> linarith

theorem FltWd.widen_fin {S : ℕ} {v : Vec (Flt binary32.fmt) S} (hv : ∀ i, (v i).isFinite) (i : Fin S) :
    ((vconvert Flt.cast S v : Vec (Flt binary64.fmt) S) i).isFinite ∧ ((vconvert Flt.cast S v : Vec (Flt binary64.fmt) S) i).val = (v i).val := by
  have e : (vconvert Flt.cast S v : Vec (Flt binary64.fmt) S) i = D (v i) := by
    unfold vconvert
    rw [dif_pos i.isLt]
  rw [e]
  exact D_fin (hv i)

theorem FltWd.eta_eq : binary64.eta = 2 ^ (-1075 : ℤ) := by
  unfold BinPar.eta
  rw [show binary64.qmin = -1074 from rfl]
  norm_num

theorem FltWd.eta_tiny : binary64.eta ≤ 2 ^ (-400 : ℤ) := by
  rw [FltWd.eta_eq]
  exact zpow_le_zpow_right₀ (by norm_num) (by norm_num)

/-- A dot product with small terms does not overflow in `double`. -/
theorem FltWd.dot_fin0 {S : ℕ} (hS : S ≤ 2 ^ 40) (x y : Vec (Flt binary64.fmt) S) (hx : ∀ i, (x i).isFinite) (hy : ∀ i, (y i).isFinite)
    (hb : ∀ i, |(x i).val * (y i).val| ≤ 2 ^ 260) : (dot x y).isFinite := by
  refine C97_dot_finite _ _ hx hy ?_
  obtain ⟨d, -⟩ := dim hS
  have hS' : (S : ℚ) ≤ 2 ^ 40 := by exact_mod_cast hS
  have h1 := pow_le_quad binary64.u_pos S (by linarith)
  have h2 : (1 + 2 ^ (-(binary64.p : ℤ)) : ℚ) ^ S ≤ 2 := by
    refine le_trans h1 ?_
    linarith
  have h3 : ∑ i, |(x i).val * (y i).val| ≤ S * 2 ^ 260 := by
    have : ∑ _i : Fin S, (2 : ℚ) ^ 260 = S * 2 ^ 260 := by rw [Finset.sum_const, Finset.card_univ, Fintype.card_fin, nsmul_eq_mul]
    rw [← this]
    exact Finset.sum_le_sum fun i _ => hb i
  have h4 : (2 : ℚ) ^ (binary64.qmin - 1) ≤ 1 := by
    refine le_trans eta_tiny ?_
    exact zpow_le_one_of_nonpos₀ (by norm_num) (by norm_num)
  have h5 : (2 : ℚ) ^ 304 < 2 ^ (binary64.p + binary64.qmax) := by
    rw [show (binary64.p + binary64.qmax : ℤ) = 1024 from rfl, ← zpow_natCast]
    exact zpow_lt_zpow_right₀ (by norm_num) (by norm_num)
  have h6 : (2 : ℚ) ^ 304 = 2 ^ 44 * 2 ^ 260 := by rw [← pow_add]
  refine lt_of_le_of_lt ?_ h5
  rw [h6]
  have t1 : (1 : ℚ) ≤ 2 ^ 260 := one_le_pow₀ (by norm_num)
  have s0 : (0 : ℚ) ≤ S := Nat.cast_nonneg S
  have h7 : (0 : ℚ) ≤ 2 ^ (binary64.qmin - 1) := (BinPar.two_zpow_pos _).le
  generalize (2 : ℚ) ^ (binary64.qmin - 1) = η at *
  clear hb h5 h6
  generalize (2 : ℚ) ^ 260 = t at *
  have h8 : (S : ℚ) * η ≤ 2 ^ 40 := by nlinarith
  have h9 : (S : ℚ) * t ≤ 2 ^ 40 * t := mul_le_mul_of_nonneg_right hS' (by linarith)
  have h10 : ∀ a b : ℚ, a ≤ 2 → 0 ≤ b → b ≤ 2 ^ 40 * t + 2 ^ 40 → a * b ≤ 2 ^ 44 * t := by
    intro a b ha hb hb'
    nlinarith
  refine h10 _ _ h2 ?_ (by linarith)
  exact add_nonneg (Finset.sum_nonneg fun _ _ => abs_nonneg _) (mul_nonneg s0 h7)

/-- The dot product of finite `float` vectors does not overflow in `double`. -/
theorem FltWd.dot_fin {S : ℕ} (hS : S ≤ 2 ^ 40) (v w : Vec (Flt binary32.fmt) S) (hv : ∀ i, (v i).isFinite) (hw : ∀ i, (w i).isFinite) :
    (dot (vconvert Flt.cast S v : Vec (Flt binary64.fmt) S) (vconvert Flt.cast S w)).isFinite := by
  refine dot_fin0 hS _ _ (fun i => (widen_fin hv i).1) (fun i => (widen_fin hw i).1) fun i => ?_
  rw [(widen_fin hv i).2, (widen_fin hw i).2]
  exact (prod_le (hv i) (hw i)).trans (pow_le_pow_right₀ (by norm_num) (by norm_num))

theorem FltWd.no_underflow0 {S : ℕ} (hS : S ≤ 2 ^ 40) (x : Vec (Flt binary64.fmt) S) (h : ∃ i, (2 : ℚ) ^ (-298 : ℤ) ≤ (x i).val ^ 2) : NoUnderflow x := by
  unfold NoUnderflow
  have hS' : (S : ℚ) ≤ 2 ^ 40 := by exact_mod_cast hS
  obtain ⟨i, h1⟩ := h
  have h2 : (x i).val ^ 2 ≤ ∑ j, (x j).val ^ 2 :=
    Finset.single_le_sum (f := fun j => (x j).val ^ 2) (fun _ _ => sq_nonneg _) (Finset.mem_univ i)
  have hu : binary64.u = 2 ^ (-53 : ℤ) := rfl
  calc (S : ℚ) * binary64.eta ≤ 2 ^ (40 : ℤ) * 2 ^ (-400 : ℤ) :=
        mul_le_mul (by exact_mod_cast hS') eta_tiny binary64.eta_pos.le (by positivity)
    _ = 2 ^ (-360 : ℤ) := by rw [← BinPar.zpow_add2]; norm_num
    _ ≤ 2 ^ (-351 : ℤ) := zpow_le_zpow_right₀ (by norm_num) (by norm_num)
    _ = 2 ^ (-53 : ℤ) * 2 ^ (-298 : ℤ) := by rw [← BinPar.zpow_add2]; norm_num
    _ ≤ _ := by rw [hu]; exact mul_le_mul_of_nonneg_left (h1.trans h2) (BinPar.two_zpow_pos _).le

theorem FltWd.no_underflow {S : ℕ} (hS : S ≤ 2 ^ 40) (v : Vec (Flt binary32.fmt) S) (hv : ∀ i, (v i).isFinite) (h0 : ∃ i, (v i).val ≠ 0) :
    NoUnderflow (vconvert Flt.cast S v : Vec (Flt binary64.fmt) S) := by
  obtain ⟨i, hi⟩ := h0
  refine no_underflow0 hS _ ⟨i, ?_⟩
  obtain ⟨m, hm⟩ := multiple (hv i) (hv i)
  have g := BinPar.two_zpow_pos (-298)
  have m1 : (1 : ℚ) ≤ m := by
    have : 0 < (v i).val * (v i).val := mul_self_pos.2 hi
    rw [hm] at this
    have := (mul_pos_iff_of_pos_right g).1 this
    exact_mod_cast this
  rw [(widen_fin hv i).2, sq, hm]
  nlinarith

/-- The length of every finite `float` vector other than zero, computed in `double` with a faithful square root, is a positive finite number with
relative error `(3 * S + 16) / 5 * 2 ^ -53`: nothing overflows or underflows. -/
theorem C161_length {S : ℕ} (hS : S ≤ 2 ^ 40) {s : Flt binary64.fmt → Flt binary64.fmt} (hs : FaithfulSqrt binary64 s) (v : Vec (Flt binary32.fmt) S)
    (hv : ∀ i, (v i).isFinite) (h0 : ∃ i, (v i).val ≠ 0) :
    let l := lengthG s (vconvert Flt.cast S v : Vec (Flt binary64.fmt) S)
    l.isFinite ∧ 0 < l.val ∧
    |(l.val : ℝ) - Real.sqrt (∑ i, ((v i).val : ℝ) ^ 2)| ≤ (3 * S + 16) / 5 * 2 ^ (-53 : ℤ) * Real.sqrt (∑ i, ((v i).val : ℝ) ^ 2) := by
  intro l
  obtain ⟨-, d⟩ := dim hS
  have hX := no_underflow hS v hv h0
  obtain ⟨h1, h2⟩ := C101_length_error binary64 d hs _ (dot_fin hS v v hv hv) hX
  have e : realLen (vconvert Flt.cast S v : Vec (Flt binary64.fmt) S) = Real.sqrt (∑ i, ((v i).val : ℝ) ^ 2) := by
    unfold realLen
    congr 1
    exact Finset.sum_congr rfl fun i _ => by rw [(widen_fin hv i).2]
  have hL : 0 < realLen (vconvert Flt.cast S v : Vec (Flt binary64.fmt) S) := by
    obtain ⟨i, -⟩ := h0
    exact realLen_pos i.pos hX
  have d' : ((binary64.lenErr S : ℚ) : ℝ) ≤ 1 / 50 := by
    have h : ((binary64.lenErr S : ℚ) : ℝ) ≤ ((1 / 50 : ℚ) : ℝ) := by exact_mod_cast d
    push_cast at h
    exact h
  refine ⟨h1, ?_, ?_⟩
  · have := (abs_le.1 h2).1
    have : (0 : ℝ) < l.val := by nlinarith
    exact_mod_cast this
  · rw [← e]
    have : ((binary64.lenErr S : ℚ) : ℝ) = (3 * S + 16) / 5 * 2 ^ (-53 : ℤ) := by
      rw [BinPar.lenErr, show binary64.u = 2 ^ (-53 : ℤ) from rfl]
      push_cast
      rfl
    rw [← this]
    exact h2

/-- Normalising every finite `float` vector other than zero in `double` gives finite components, each within `2 ^ -50` of the exact one for up to three
components, and the library itself recognises the result as a unit vector with any epsilon from `2 ^ -48`. -/
theorem C161_normalize {S : ℕ} (hS : S ≤ 3) {s : Flt binary64.fmt → Flt binary64.fmt} (hs : FaithfulSqrt binary64 s) (v : Vec (Flt binary32.fmt) S)
    (hv : ∀ i, (v i).isFinite) (h0 : ∃ i, (v i).val ≠ 0) :
    let n := normalizeG s (vconvert Flt.cast S v : Vec (Flt binary64.fmt) S)
    (∀ i, (n i).isFinite ∧ |((n i).val : ℝ) - (v i).val / Real.sqrt (∑ j, ((v j).val : ℝ) ^ 2)| ≤ 2 ^ (-50 : ℤ)) ∧
    ∀ e : Flt binary64.fmt, e.isFinite → 2 ^ (-48 : ℤ) ≤ e.val → isUnitG s n e = true := by
  have hS2 : S ≤ 2 ^ 40 := hS.trans (by norm_num)
  have hS3 : (S : ℚ) ≤ 3 := by exact_mod_cast hS
  obtain ⟨-, d⟩ := dim hS2
  have hX := no_underflow hS2 v hv h0
  have hp : 0 < S := by obtain ⟨i, -⟩ := h0; exact i.pos
  have hf := dot_fin hS2 v v hv hv
  have hL := realLen_pos hp hX
  have e : realLen (vconvert Flt.cast S v : Vec (Flt binary64.fmt) S) = Real.sqrt (∑ i, ((v i).val : ℝ) ^ 2) := by
    unfold realLen
    congr 1
    exact Finset.sum_congr rfl fun i _ => by rw [(widen_fin hv i).2]
  have hu : binary64.u = 1 / 2 ^ 53 := by norm_num [BinPar.u, binary64]
  have le : binary64.lenErr S ≤ 5 / 2 ^ 53 := by
    unfold BinPar.lenErr
    rw [hu]
    linarith
  refine ⟨fun i => ?_, fun e' he hee => ?_⟩
  · obtain ⟨n1, n2⟩ := C101_normalize_error binary64 hp d hs _ hf hX i
    refine ⟨n1, ?_⟩
    rw [(widen_fin hv i).2, e] at n2
    rw [e] at hL
    refine n2.trans ?_
    have ne : ((binary64.normErr S : ℚ) : ℝ) ≤ 29 / 4 / 2 ^ 53 := by
      have : binary64.normErr S ≤ 29 / 4 / 2 ^ 53 := by
        unfold BinPar.normErr
        rw [hu]
        linarith
      have h : ((binary64.normErr S : ℚ) : ℝ) ≤ ((29 / 4 / 2 ^ 53 : ℚ) : ℝ) := by exact_mod_cast this
      push_cast at h
      exact h
    have ee : ((binary64.eta : ℚ) : ℝ) ≤ 1 / 2 ^ 100 := by
      have : binary64.eta ≤ 1 / 2 ^ 100 := eta_tiny.trans (by
        calc (2 : ℚ) ^ (-400 : ℤ) ≤ 2 ^ (-100 : ℤ) := zpow_le_zpow_right₀ (by norm_num) (by norm_num)
          _ = 1 / 2 ^ 100 := by norm_num)
      have h : ((binary64.eta : ℚ) : ℝ) ≤ ((1 / 2 ^ 100 : ℚ) : ℝ) := by exact_mod_cast this
      push_cast at h
      exact h
    have q : |((v i).val : ℝ)| / Real.sqrt (∑ j, ((v j).val : ℝ) ^ 2) ≤ 1 := by
      rw [div_le_one hL]
      refine Real.abs_le_sqrt ?_
      exact Finset.single_le_sum (f := fun j => ((v j).val : ℝ) ^ 2) (fun _ _ => sq_nonneg _) (Finset.mem_univ i)
    have q0 : 0 ≤ |((v i).val : ℝ)| / Real.sqrt (∑ j, ((v j).val : ℝ) ^ 2) := div_nonneg (abs_nonneg _) hL.le
    have b : ((binary64.normErr S : ℚ) : ℝ) * (|((v i).val : ℝ)| / Real.sqrt (∑ j, ((v j).val : ℝ) ^ 2)) ≤ 29 / 4 / 2 ^ 53 * 1 :=
      mul_le_mul ne q q0 (by positivity)
    have c : (2 : ℝ) ^ (-50 : ℤ) = 8 / 2 ^ 53 := by norm_num
    rw [c]
    have : (1 : ℝ) / 2 ^ 100 ≤ 3 / 4 / 2 ^ 53 := by norm_num
    linarith
  · refine C101_normalize_is_unit binary64 hp d hs _ hf hX e' he (le_trans ?_ hee)
    rw [hu, show (2 : ℚ) ^ (-48 : ℤ) = 32 / 2 ^ 53 by norm_num]
    linarith

/-- The difference of two `float` numbers in `double`: finite, at most `2 ^ 130`, and zero or at least `2 ^ -149`, exactly if the numbers are equal or
not. -/
theorem FltWd.diff {x y : Flt binary32.fmt} (hx : x.isFinite) (hy : y.isFinite) :
    (D x - D y).isFinite ∧ |(D x - D y).val| ≤ 2 ^ 130 ∧ (x.val ≠ y.val → (2 : ℚ) ^ (-149 : ℤ) ≤ |(D x - D y).val|) := by
  have l1 := le_bound hx
  have l2 := le_bound hy
  have r : binary64.Rep (2 ^ 130) := ⟨1, 130, by norm_num, by rw [abs_one]; exact one_lt_pow₀ (by norm_num) (by decide), by decide⟩
  have r' : binary64.Rep (2 ^ (-149 : ℤ)) := ⟨1, -149, by simp, by rw [abs_one]; exact one_lt_pow₀ (by norm_num) (by decide), by decide⟩
  have ab : |x.val - y.val| ≤ 2 ^ 130 := (abs_sub _ _).trans (by linarith)
  have key : ∀ q : ℚ, |q| ≤ 2 ^ 130 → |binary64.fl q| ≤ 2 ^ 130 := fun q hq => by
    have h1 := binary64.fl_mono (abs_le.1 hq).2
    have h2 := binary64.fl_mono (abs_le.1 hq).1
    rw [binary64.fl_rep r] at h1
    rw [binary64.fl_neg, binary64.fl_rep r] at h2
    exact abs_le.2 ⟨h2, h1⟩
  have hb : |x.val - y.val| ≤ 2 ^ 258 := ab.trans (pow_le_pow_right₀ (by norm_num) (by norm_num))
  obtain ⟨s1, s2⟩ := is_sub (P := binary64) (D_fin hx) (D_fin hy) rfl (fl_lt_bound (big hb))
  refine ⟨s1, by rw [s2]; exact key _ ab, fun hne => ?_⟩
  rw [s2]
  obtain ⟨m, hm⟩ := (rep hx).1.multiple_qmin
  obtain ⟨n, hn⟩ := (rep hy).1.multiple_qmin
  rw [show binary32.qmin = -149 from rfl] at hm hn
  have g := BinPar.two_zpow_pos (-149)
  have e : x.val - y.val = ((m - n : ℤ) : ℚ) * 2 ^ (-149 : ℤ) := by rw [hm, hn, Int.cast_sub, sub_mul]
  have mn : m - n ≠ 0 := fun h => hne (by rw [h, Int.cast_zero, zero_mul] at e; linarith)
  rcases lt_or_gt_of_ne mn with h | h
  · have h1 : (((m - n : ℤ)) : ℚ) ≤ -1 := by exact_mod_cast (by omega : m - n ≤ -1)
    have h2 : x.val - y.val ≤ -2 ^ (-149 : ℤ) := by rw [e]; nlinarith
    have h3 := binary64.fl_mono h2
    rw [binary64.fl_neg, binary64.fl_rep r'] at h3
    rw [abs_of_nonpos (by linarith)]
    linarith
  · have h1 : (1 : ℚ) ≤ ((m - n : ℤ) : ℚ) := by exact_mod_cast (by omega : 1 ≤ m - n)
    have h2 : (2 : ℚ) ^ (-149 : ℤ) ≤ x.val - y.val := by rw [e]; nlinarith
    have h3 := binary64.fl_mono h2
    rw [binary64.fl_rep r'] at h3
    rw [abs_of_nonneg (by linarith)]
    linarith

/-- The distance of every two different finite `float` points, computed in `double`, is a positive finite number with a relative error of a few units
of rounding. -/
theorem C161_distance {S : ℕ} (hS : S ≤ 2 ^ 40) {s : Flt binary64.fmt → Flt binary64.fmt} (hs : FaithfulSqrt binary64 s) (a b : Vec (Flt binary32.fmt) S)
    (ha : ∀ i, (a i).isFinite) (hb : ∀ i, (b i).isFinite) (h0 : ∃ i, (a i).val ≠ (b i).val) :
    let d := distanceG s (vconvert Flt.cast S a : Vec (Flt binary64.fmt) S) (vconvert Flt.cast S b)
    let e := Real.sqrt (∑ i, (((a i).val : ℝ) - (b i).val) ^ 2)
    d.isFinite ∧ 0 < d.val ∧ |(d.val : ℝ) - e| ≤ ((3 * S + 26) / 5 * 2 ^ (-53 : ℤ)) * e := by
  intro d e
  obtain ⟨-, dm⟩ := dim hS
  set x : Vec (Flt binary64.fmt) S := vconvert Flt.cast S a with hx
  set y : Vec (Flt binary64.fmt) S := vconvert Flt.cast S b with hy
  have cx : ∀ i, x i = D (a i) := fun i => by rw [hx]; unfold vconvert; rw [dif_pos i.isLt]
  have cy : ∀ i, y i = D (b i) := fun i => by rw [hy]; unfold vconvert; rw [dif_pos i.isLt]
  have df : ∀ i, (x - y) i = D (a i) - D (b i) := fun i => by show x i - y i = _; rw [cx, cy]
  have hf : (squaredLength (x - y)).isFinite := by
    refine dot_fin0 hS _ _ (fun i => ?_) (fun i => ?_) fun i => ?_
    · rw [df]; exact (diff (ha i) (hb i)).1
    · rw [df]; exact (diff (ha i) (hb i)).1
    · rw [df, abs_mul]
      have h := (diff (ha i) (hb i)).2.1
      calc _ ≤ (2 : ℚ) ^ 130 * 2 ^ 130 := mul_le_mul h h (abs_nonneg _) (by positivity)
        _ = 2 ^ 260 := by rw [← pow_add]
  have hX : NoUnderflow (x - y) := by
    obtain ⟨i, hi⟩ := h0
    refine no_underflow0 hS _ ⟨i, ?_⟩
    rw [df, ← sq_abs, show (-298 : ℤ) = -149 + -149 by norm_num, BinPar.zpow_add2, sq]
    have h := (diff (ha i) (hb i)).2.2 hi
    exact mul_le_mul h h (BinPar.two_zpow_pos _).le (abs_nonneg _)
  obtain ⟨d1, d2⟩ := C101_distance_error binary64 dm hs x y hf hX
  have vx : ∀ i, (x i).val = (a i).val := fun i => (widen_fin ha i).2
  have vy : ∀ i, (y i).val = (b i).val := fun i => (widen_fin hb i).2
  simp only [vx, vy] at d2
  have ep : 0 < e := by
    obtain ⟨i, hi⟩ := h0
    refine Real.sqrt_pos.2 (Finset.sum_pos' (fun _ _ => sq_nonneg _) ⟨i, Finset.mem_univ i, ?_⟩)
    have : ((a i).val : ℝ) - (b i).val ≠ 0 := sub_ne_zero.2 (by exact_mod_cast hi)
    positivity
  have c : ((binary64.lenErr S : ℚ) : ℝ) + 2 * ((binary64.u : ℚ) : ℝ) = (3 * S + 26) / 5 * 2 ^ (-53 : ℤ) := by
    rw [BinPar.lenErr, show binary64.u = 2 ^ (-53 : ℤ) from rfl]
    push_cast
    ring
  rw [c] at d2
  have c1 : ((3 * S + 26) / 5 * 2 ^ (-53 : ℤ) : ℝ) ≤ 1 / 2 := by
    have h : (S : ℝ) ≤ 2 ^ 40 := by exact_mod_cast hS
    rw [show (2 : ℝ) ^ (-53 : ℤ) = 1 / 2 ^ 53 by norm_num]
    linarith
  refine ⟨d1, ?_, d2⟩
  have := (abs_le.1 d2).1
  have : (0 : ℝ) < d.val := by
    show (0 : ℝ) < (distanceG s x y).val
    nlinarith
  exact_mod_cast this

/-- Converting a correctly rounded `double` result `r` back to `float` gives the exact value `q` up to half a unit in the last place of `float` and a
tiny rest, and never the wrong sign.  By `C161_cross` this applies to every component of a cross product. -/
theorem C161_back {r : Flt binary64.fmt} {q : ℚ} (h : CorrectlyRounded r q) (hq : |q| ≤ 2 ^ 127) :
    let f : Flt binary32.fmt := Flt.cast r
    f.isFinite ∧ |f.val - q| ≤ (1 / 2 ^ 24 + 1 / 2 ^ 52) * |q| + 2 ^ (-150 : ℤ) ∧ (0 ≤ q → 0 ≤ f.val) ∧ (q ≤ 0 → f.val ≤ 0) := by
  intro f
  obtain ⟨h1, -, h2, h3, h4, h5⟩ := h
  have q0 := abs_nonneg q
  rw [show (2 : ℚ) ^ (-53 : ℤ) = 1 / 2 ^ 53 by norm_num] at h2
  have a1 : |r.val| ≤ |q| + 1 / 2 ^ 53 * |q| := by
    have := abs_add_le q (r.val - q)
    rw [add_sub_cancel] at this
    linarith
  have lt : |r.val| < (2 ^ binary32.p - 1 / 2) * 2 ^ binary32.qmax := by
    rw [show binary32.p = 24 from rfl, show binary32.qmax = 104 from rfl]
    have : (2 : ℚ) ^ (104 : ℤ) = 2 ^ 104 := by norm_num
    rw [this]
    refine lt_of_le_of_lt a1 ?_
    have : (2 : ℚ) ^ 127 + 1 / 2 ^ 53 * 2 ^ 127 < (2 ^ 24 - 1 / 2) * 2 ^ 104 := by norm_num
    nlinarith
  obtain ⟨n1, n2, n3⟩ := (C132_narrow binary32 r).2.2.2.1 h1 lt
  have e1 : (2 : ℚ) ^ (-(binary32.p : ℤ)) = 1 / 2 ^ 24 := by norm_num [binary32]
  have e2 : (2 : ℚ) ^ (binary32.qmin - 1) = 2 ^ (-150 : ℤ) := by rw [show binary32.qmin = -149 from rfl]; norm_num
  rw [e1, e2] at n2
  have nz := n3 0
  rw [Flt.zero_val, zero_sub, abs_neg] at nz
  refine ⟨n1, ?_, ?_, ?_⟩
  · have t := abs_add_le (f.val - r.val) (r.val - q)
    rw [sub_add_sub_cancel] at t
    linarith
  · intro hq0
    have r0 : 0 ≤ r.val := by
      rcases lt_or_ge r.val 0 with c | c
      · exact absurd (h4.1 c) (not_lt.2 hq0)
      · exact c
    rw [abs_of_nonneg r0] at nz
    have := (abs_le.1 nz).1
    show 0 ≤ f.val
    linarith
  · intro hq0
    have r0 : r.val ≤ 0 := by
      rcases lt_or_ge 0 r.val with c | c
      · exact absurd (h3.1 c) (not_lt.2 hq0)
      · exact c
    rw [abs_of_nonpos r0] at nz
    have := (abs_le.1 nz).2
    show f.val ≤ 0
    linarith

/-- A sum in `double` of numbers that are not too large: no overflow, and a relative error. -/
theorem FltWd.step {x y : Flt binary64.fmt} {A B : ℚ} (hx : x.isFinite) (hy : y.isFinite) (hA : |x.val| ≤ A) (hB : |y.val| ≤ B) (h : A + B ≤ 2 ^ 258) :
    (x + y).isFinite ∧ |(x + y).val - (x.val + y.val)| ≤ 1 / 2 ^ 53 * (A + B) ∧ |(x + y).val| ≤ (1 + 1 / 2 ^ 53) * (A + B) := by
  have t := (abs_add_le x.val y.val).trans (add_le_add hA hB)
  obtain ⟨s1, s2⟩ := is_add (P := binary64) ⟨hx, rfl⟩ ⟨hy, rfl⟩ rfl (fl_lt_bound (big (t.trans h)))
  have e := binary64.fl_add_err_u (Flt.rep_val x).1 (Flt.rep_val y).1
  rw [← s2, show binary64.u = 1 / 2 ^ 53 by norm_num [BinPar.u, binary64]] at e
  have e' : |(x + y).val - (x.val + y.val)| ≤ 1 / 2 ^ 53 * (A + B) := e.trans (mul_le_mul_of_nonneg_left t (by norm_num))
  refine ⟨s1, e', ?_⟩
  have := abs_add_le (x.val + y.val) ((x + y).val - (x.val + y.val))
  rw [add_sub_cancel] at this
  linarith

/-- The dot product of two finite `float` vectors with three components and the distance of a finite `float` point from such a plane, computed in
`double`: finite, with an error of at most `2 ^ -51` times the sum of the absolute values of the terms, whatever their magnitudes.  So the signs are
right for larger values. -/
theorem C161_dot_three (v : Vec (Flt binary32.fmt) 3) (p : Plane (Flt binary32.fmt) 3) (hv : ∀ i, (v i).isFinite) (hn : ∀ i, (p.normal i).isFinite)
    (hd : p.distance.isFinite) :
    let a := ∑ i, |(v i).val * (p.normal i).val|
    let e := ∑ i, (v i).val * (p.normal i).val
    let x : Vec (Flt binary64.fmt) 3 := vconvert Flt.cast 3 v
    let q : Plane (Flt binary64.fmt) 3 := Plane.convert Flt.cast p
    ((dot x q.normal).isFinite ∧ |(dot x q.normal).val - e| ≤ 1 / 2 ^ 51 * a) ∧
    ((q.pointDistance x).isFinite ∧ |(q.pointDistance x).val - (e - p.distance.val)| ≤ 1 / 2 ^ 51 * (a + |p.distance.val|) ∧
      (1 / 2 ^ 51 * (a + |p.distance.val|) < e - p.distance.val → 0 < (q.pointDistance x).val) ∧
      (e - p.distance.val < -(1 / 2 ^ 51 * (a + |p.distance.val|)) → (q.pointDistance x).val < 0)) := by
  intro a e x q
  have m0 := FltWd.mul (hv 0) (hn 0)
  have m1 := FltWd.mul (hv 1) (hn 1)
  have m2 := FltWd.mul (hv 2) (hn 2)
  have b0 := prod_le (hv 0) (hn 0)
  have b1 := prod_le (hv 1) (hn 1)
  have b2 := prod_le (hv 2) (hn 2)
  have b3 : |p.distance.val| ≤ 2 ^ 256 / 2 := (le_bound hd).trans (by norm_num)
  have ea : a = |(v 0).val * (p.normal 0).val| + |(v 1).val * (p.normal 1).val| + |(v 2).val * (p.normal 2).val| := Fin.sum_univ_three _
  have ee : e = (v 0).val * (p.normal 0).val + (v 1).val * (p.normal 1).val + (v 2).val * (p.normal 2).val := Fin.sum_univ_three _
  have ed : dot x q.normal = D (v 0) * D (p.normal 0) + D (v 1) * D (p.normal 1) + D (v 2) * D (p.normal 2) := by rw [FltQt.dot3]; rfl
  have ep : q.pointDistance x = D (v 0) * D (p.normal 0) + D (v 1) * D (p.normal 1) + D (v 2) * D (p.normal 2) + -D p.distance := by
    rw [← ed]; rfl
  have dd := D_fin hd
  have t0 : (2 : ℚ) ^ 258 = 4 * 2 ^ 256 := by rw [show 258 = 2 + 256 by rfl, pow_add]; norm_num
  have t1 : (0 : ℚ) ≤ 2 ^ 256 := by positivity
  have n0 := abs_nonneg ((v 0).val * (p.normal 0).val)
  have n1 := abs_nonneg ((v 1).val * (p.normal 1).val)
  have n2 := abs_nonneg ((v 2).val * (p.normal 2).val)
  have n3 := abs_nonneg p.distance.val
  generalize D (v 0) * D (p.normal 0) = P0 at *
  generalize D (v 1) * D (p.normal 1) = P1 at *
  generalize D (v 2) * D (p.normal 2) = P2 at *
  generalize D p.distance = P3 at *
  rw [ed, ep]
  clear ed ep
  clear_value a e
  obtain ⟨m0f, m0v⟩ := m0
  obtain ⟨m1f, m1v⟩ := m1
  obtain ⟨m2f, m2v⟩ := m2
  obtain ⟨ddf, ddv⟩ := dd
  generalize (v 0).val * (p.normal 0).val = w0 at *
  generalize (v 1).val * (p.normal 1).val = w1 at *
  generalize (v 2).val * (p.normal 2).val = w2 at *
  generalize p.distance.val = w3 at *
  have s1 := FltWd.step m0f m1f (by rw [m0v]) (by rw [m1v]) (by rw [t0]; linarith)
  have s2 := FltWd.step s1.1 m2f s1.2.2 (by rw [m2v]) (by rw [t0]; linarith)
  have s3 := FltWd.step s2.1 (Flt.neg_finite.2 ddf) s2.2.2 (by rw [Flt.neg_val, abs_neg, ddv]) (by rw [t0]; linarith)
  rw [Flt.neg_val, ddv] at s3
  rw [m2v] at s2
  rw [m0v, m1v] at s1
  have k1 := abs_le.1 s1.2.1
  have k2 := abs_le.1 s2.2.1
  have k3 := abs_le.1 s3.2.1
  have bound : |(P0 + P1 + P2 + -P3).val - (e - w3)| ≤ 1 / 2 ^ 51 * (a + |w3|) := by
    rw [ea, ee, abs_le]
    constructor <;> linarith
  refine ⟨⟨s2.1, ?_⟩, s3.1, bound, fun h => ?_, fun h => ?_⟩
  · rw [ea, ee, abs_le]
    constructor <;> linarith
  · have := (abs_le.1 bound).1
    linarith
  · have := (abs_le.1 bound).2
    linarith

/-- Half of the sum, and the difference, of two `float` numbers in `double`. -/
theorem FltWd.half {x y : Flt binary32.fmt} (hx : x.isFinite) (hy : y.isFinite) :
    CorrectlyRounded ((D x + D y) / 2) ((x.val + y.val) / 2) ∧ CorrectlyRounded (D x - D y) (x.val - y.val) := by
  obtain ⟨m, hm⟩ := (rep hx).1.multiple_qmin
  obtain ⟨n, hn⟩ := (rep hy).1.multiple_qmin
  rw [show binary32.qmin = -149 from rfl, show (-149 : ℤ) = ((149 : ℕ) : ℤ) + -298 by norm_num, BinPar.zpow_add2, zpow_natCast] at hm hn
  have l1 := le_bound hx
  have l2 := le_bound hy
  have up : ∀ q : ℚ, |q| ≤ 2 ^ 130 → |q| ≤ 2 ^ 258 := fun q h => h.trans (pow_le_pow_right₀ (by norm_num) (by norm_num))
  have hb : |x.val + y.val| ≤ 2 ^ 130 := (abs_add_le _ _).trans (by linarith)
  have hb' : |x.val - y.val| ≤ 2 ^ 130 := (abs_sub _ _).trans (by linarith)
  have hh : |(x.val + y.val) / 2| ≤ 2 ^ 130 := by
    rw [abs_div, abs_of_pos (by norm_num : (0 : ℚ) < 2)]
    have := abs_nonneg (x.val + y.val)
    linarith
  have e : (x.val + y.val) / 2 = (((m + n) * 2 ^ 148 : ℤ) : ℚ) * 2 ^ (-298 : ℤ) := by
    rw [hm, hn]
    generalize (2 : ℚ) ^ (-298 : ℤ) = g
    push_cast
    ring
  have g := BinPar.two_zpow_pos (-298)
  have nrm : binary64.Normal ((x.val + y.val) / 2) := by
    by_cases z : (m + n) * 2 ^ 148 = 0
    · exact Or.inl (by rw [e, z, Int.cast_zero, zero_mul])
    · right
      rw [e, abs_mul, abs_of_pos g]
      have h1 : (1 : ℚ) ≤ |(((m + n) * 2 ^ 148 : ℤ) : ℚ)| := by exact_mod_cast Int.one_le_abs z
      have h2 : (2 : ℚ) ^ (binary64.qmin + binary64.p - 1) ≤ 2 ^ (-298 : ℤ) := zpow_le_zpow_right₀ (by norm_num) (by decide)
      calc (2 : ℚ) ^ (binary64.qmin + binary64.p - 1) ≤ 1 * 2 ^ (-298 : ℤ) := by rw [one_mul]; exact h2
        _ ≤ _ := mul_le_mul_of_nonneg_right h1 g.le
  have sc := FltSc.fl_scale 1 nrm
  rw [pow_one, mul_div_cancel₀ _ (by norm_num : (2 : ℚ) ≠ 0)] at sc
  constructor
  · have s1 := is_add (P := binary64) (D_fin hx) (D_fin hy) rfl (fl_lt_bound (big (up _ hb)))
    have s2 := is_div (P := binary64) (c := binary64.fl ((x.val + y.val) / 2)) s1 (Flt.two_eq binary64) (by norm_num) (by
      rw [sc, mul_div_cancel_left₀ _ (by norm_num : (2 : ℚ) ≠ 0)]
      exact binary64.fl_rep (binary64.rep_fl _)) (fl_lt_bound (big (up _ hh)))
    refine FltWd.correct s2 ?_ e
    rcases nrm with z | z
    · rw [z, binary64.fl_zero, sub_self, abs_zero, mul_zero]
    · exact BinPar.fl_err_rel z
  · refine FltWd.correct (m := (m - n) * 2 ^ 149) (is_sub (P := binary64) (D_fin hx) (D_fin hy) rfl (fl_lt_bound (big (up _ hb')))) ?_ ?_
    · have hr := fun {z : Flt binary32.fmt} (hz : z.isFinite) => (D_fin hz).2 ▸ (Flt.rep_val (D z)).1
      exact BinPar.fl_sub_err (hr hx) (hr hy)
    · rw [hm, hn]
      generalize (2 : ℚ) ^ (-298 : ℤ) = g
      push_cast
      ring

/-- The center and the size of every box with finite `float` corners and the center of every such segment, computed in `double`, are the exact ones
correctly rounded; in `float` the center overflows for large boxes (`C100_center_fails`). -/
theorem C161_center {S : ℕ} (b : BBox (Flt binary32.fmt) S) (g : Segment (Flt binary32.fmt) S) (hb : ∀ i, (b.min i).isFinite ∧ (b.max i).isFinite)
    (hg : ∀ i, (g.start i).isFinite ∧ (g.end_ i).isFinite) (i : Fin S) :
    CorrectlyRounded ((BBox.convert Flt.cast b : BBox (Flt binary64.fmt) S).center i) (((b.min i).val + (b.max i).val) / 2) ∧
    CorrectlyRounded ((BBox.convert Flt.cast b : BBox (Flt binary64.fmt) S).size i) ((b.max i).val - (b.min i).val) ∧
    CorrectlyRounded ((Segment.convert Flt.cast g : Segment (Flt binary64.fmt) S).center i) (((g.start i).val + (g.end_ i).val) / 2) :=
  ⟨(FltWd.half (hb i).1 (hb i).2).1, (FltWd.half (hb i).2 (hb i).1).2, (FltWd.half (hg i).1 (hg i).2).1⟩

namespace FltWd

/-- The number 1 + 2^-13. -/
def up : Flt binary32.fmt := Flt.round (1 + 1 / 2 ^ 13)
/-- The number 1 - 2^-13. -/
def dn : Flt binary32.fmt := Flt.round (1 - 1 / 2 ^ 13)

theorem up_is : up.isFinite ∧ up.val = 1 + 1 / 2 ^ 13 :=
  is_round (P := binary32) (by fl_num (-23) (8388608 + 1024)) (lt_bound32 (by norm_num))
theorem dn_is : dn.isFinite ∧ dn.val = 1 - 1 / 2 ^ 13 :=
  is_round (P := binary32) (by fl_num (-24) (16777216 - 2048)) (lt_bound32 (by norm_num))
theorem one_is (P : BinPar) : (1 : Flt P.fmt).isFinite ∧ (1 : Flt P.fmt).val = 1 := ⟨Flt.one_finite, Flt.one_val⟩
theorem zero_is (P : BinPar) : (0 : Flt P.fmt).isFinite ∧ (0 : Flt P.fmt).val = 0 := ⟨Flt.zero_finite, Flt.zero_val⟩

theorem up_fin : ∀ i, ((![up, 1, 0] : Vec (Flt binary32.fmt) 3) i).isFinite := by
  intro i; fin_cases i
  · exact up_is.1
  · exact Flt.one_finite
  · exact Flt.zero_finite
theorem dn_fin : ∀ i, ((![1, dn, 0] : Vec (Flt binary32.fmt) 3) i).isFinite := by
  intro i; fin_cases i
  · exact Flt.one_finite
  · exact dn_is.1
  · exact Flt.zero_finite

end FltWd

/-- In `float` the sign is lost: two finite vectors that are not parallel have the cross product zero, although the one computed in `double` points
down the z axis. -/
theorem C161_float_fails : ∃ v w : Vec (Flt binary32.fmt) 3, (∀ i, (v i).isFinite) ∧ (∀ i, (w i).isFinite) ∧
    (¬ ∃ t : ℚ, ∀ i, (w i).val = t * (v i).val) ∧ cross v w = 0 ∧
    (cross (vconvert Flt.cast 3 v : Vec (Flt binary64.fmt) 3) (vconvert Flt.cast 3 w) 2).val < 0 := by
  refine ⟨![up, 1, 0], ![1, dn, 0], up_fin, dn_fin, ?_, ?_, ?_⟩
  · rintro ⟨t, h⟩
    have h0 : (1 : Flt binary32.fmt).val = t * up.val := h 0
    have h1 : dn.val = t * (1 : Flt binary32.fmt).val := h 1
    rw [Flt.one_val, up_is.2] at h0
    rw [Flt.one_val, dn_is.2] at h1
    rw [mul_one] at h1
    rw [← h1] at h0
    norm_num at h0
  · have a := is_mul (P := binary32) (c := 1) up_is dn_is (by fl_num (-24) (16777216)) (lt_bound32 (by norm_num))
    have o := is_mul (P := binary32) (c := 1) (one_is _) (one_is _) (by fl_num (-23) (8388608)) (lt_bound32 (by norm_num))
    have z := is_sub (P := binary32) (c := 0) a o (by rw [sub_self, BinPar.fl_zero]) (lt_bound32 (by norm_num))
    have zz : (0 : Flt binary32.fmt) - 0 = 0 := by
      have := is_sub (P := binary32) (c := 0) (zero_is _) (zero_is _) (by rw [sub_self, BinPar.fl_zero]) (lt_bound32 (by norm_num))
      exact Flt.ext this.1 Flt.zero_finite (by rw [this.2, Flt.zero_val])
    funext i
    fin_cases i
    · show 1 * 0 - 0 * dn = (0 : Flt binary32.fmt)
      rw [Flt.one_mul', Flt.zero_mul_fin dn_is.1, zz]
    · show 0 * 1 - up * 0 = (0 : Flt binary32.fmt)
      rw [Flt.zero_mul_fin Flt.one_finite, Flt.mul_zero_fin up_is.1, zz]
    · show up * dn - 1 * 1 = (0 : Flt binary32.fmt)
      exact Flt.ext z.1 Flt.zero_finite (by rw [Flt.zero_val]; exact z.2)
  · have h := (C161_cross _ _ up_fin dn_fin).2.2
    refine h.2.2.2.2.1.2 ?_
    show up.val * dn.val - (1 : Flt binary32.fmt).val * (1 : Flt binary32.fmt).val < 0
    rw [up_is.2, dn_is.2, Flt.one_val]
    norm_num

/-- With three components the dot product rounds twice, and `double` no longer keeps the sign: for two finite `float` vectors it is zero, although the
exact one is 1. -/
theorem C161_dot_three_fails : ∃ v w : Vec (Flt binary32.fmt) 3, (∀ i, (v i).isFinite) ∧ (∀ i, (w i).isFinite) ∧
    (v 0).val * (w 0).val + (v 1).val * (w 1).val + (v 2).val * (w 2).val = 1 ∧
    dot (vconvert Flt.cast 3 v : Vec (Flt binary64.fmt) 3) (vconvert Flt.cast 3 w) = 0 := by
  have b : (Flt.round (2 ^ 30) : Flt binary32.fmt).isFinite ∧ (Flt.round (2 ^ 30) : Flt binary32.fmt).val = 2 ^ 30 :=
    is_round (P := binary32) (by fl_num 7 8388608) (lt_bound32 (by norm_num))
  set t : Flt binary32.fmt := Flt.round (2 ^ 30) with ht
  have n : (-t).isFinite ∧ (-t).val = -2 ^ 30 := ⟨Flt.neg_finite.2 b.1, by rw [Flt.neg_val, b.2]⟩
  refine ⟨![t, 1, t], ![t, 1, -t], ?_, ?_, ?_, ?_⟩
  · intro i; fin_cases i
    · exact b.1
    · exact Flt.one_finite
    · exact b.1
  · intro i; fin_cases i
    · exact b.1
    · exact Flt.one_finite
    · exact n.1
  · show t.val * t.val + (1 : Flt binary32.fmt).val * (1 : Flt binary32.fmt).val + t.val * (-t).val = 1
    rw [n.2, b.2, Flt.one_val]
    norm_num
  · rw [FltQt.dot3]
    show D t * D t + D 1 * D 1 + D t * D (-t) = 0
    have h1 := FltWd.mul b.1 b.1
    have h2 := FltWd.mul (x := 1) (y := 1) Flt.one_finite Flt.one_finite
    have h3 := FltWd.mul b.1 n.1
    rw [b.2] at h1
    rw [Flt.one_val, one_mul] at h2
    rw [b.2, n.2] at h3
    have s := is_add (P := binary64) (c := 2 ^ 60) h1 h2 (by fl_num 8 (2 ^ 52)) (lt_bound64 (by norm_num))
    have r := is_add (P := binary64) (c := 0) s h3 (by norm_num [BinPar.fl_zero]) (lt_bound64 (by norm_num))
    exact Flt.ext r.1 Flt.zero_finite (by rw [r.2, Flt.zero_val])

/-- The vectors (1 + 2^-13, 1, 0) and (1, 1 - 2^-13, 0) meet the hypotheses of `C161_cross` and `C161_parallel`; their exact cross product is not zero. -/
example : ∃ v w : Vec (Flt binary32.fmt) 3, (∀ i, (v i).isFinite) ∧ (∀ i, (w i).isFinite) ∧ (∃ i, (v i).val ≠ 0) ∧
    (v 0).val * (w 1).val - (v 1).val * (w 0).val = -1 / 2 ^ 26 := by
  refine ⟨![up, 1, 0], ![1, dn, 0], up_fin, dn_fin, ⟨0, ?_⟩, ?_⟩
  · show up.val ≠ 0
    rw [up_is.2]; norm_num
  · show up.val * dn.val - (1 : Flt binary32.fmt).val * (1 : Flt binary32.fmt).val = _
    rw [up_is.2, dn_is.2, Flt.one_val]; norm_num

/-- The hypotheses of `C161_back` hold for the last component of the cross product of (1 + 2^-13, 1, 0) and (1, 1 - 2^-13, 0): back in `float` it is not
zero. -/
example : ((Flt.cast (cross (vconvert Flt.cast 3 ![up, 1, 0] : Vec (Flt binary64.fmt) 3) (vconvert Flt.cast 3 ![1, dn, 0]) 2) : Flt binary32.fmt)).val < 0 := by
  have e : up.val * dn.val - (1 : Flt binary32.fmt).val * (1 : Flt binary32.fmt).val = -1 / 2 ^ 26 := by
    rw [up_is.2, dn_is.2, Flt.one_val]; norm_num
  have h := (C161_cross _ _ up_fin dn_fin).2.2
  have q : CorrectlyRounded (cross (vconvert Flt.cast 3 ![up, 1, 0] : Vec (Flt binary64.fmt) 3) (vconvert Flt.cast 3 ![1, dn, 0]) 2) (-1 / 2 ^ 26) := by
    rw [← e]; exact h
  have b := (abs_le.1 (C161_back q (by norm_num)).2.1).2
  have t : (2 : ℚ) ^ (-150 : ℤ) ≤ 1 / 2 ^ 100 := by
    calc (2 : ℚ) ^ (-150 : ℤ) ≤ 2 ^ (-100 : ℤ) := zpow_le_zpow_right₀ (by norm_num) (by norm_num)
      _ = 1 / 2 ^ 100 := by norm_num
  have u : |(-1 / 2 ^ 26 : ℚ)| = 1 / 2 ^ 26 := by norm_num
  rw [u] at b
  have w : (1 / 2 ^ 24 + 1 / 2 ^ 52 : ℚ) * (1 / 2 ^ 26) + 1 / 2 ^ 100 < 1 / 2 ^ 26 := by norm_num
  linarith

/-- The point (1 + 2^-13, 1, 0) and the plane with the normal (1, 1 - 2^-13, 0) and the distance 1 meet the hypotheses of `C161_dot_three`: the point is
above the plane. -/
example : 0 < (Plane.pointDistance (Plane.convert Flt.cast (⟨1, ![1, dn, 0]⟩ : Plane (Flt binary32.fmt) 3) : Plane (Flt binary64.fmt) 3)
    (vconvert Flt.cast 3 ![up, 1, 0])).val := by
  have h := C161_dot_three ![up, 1, 0] ⟨1, ![1, dn, 0]⟩ up_fin dn_fin Flt.one_finite
  refine h.2.2.2.1 ?_
  rw [Fin.sum_univ_three, Fin.sum_univ_three]
  show 1 / 2 ^ 51 * (|up.val * (1 : Flt binary32.fmt).val| + |(1 : Flt binary32.fmt).val * dn.val| + |(0 : Flt binary32.fmt).val * (0 : Flt binary32.fmt).val|
    + |(1 : Flt binary32.fmt).val|) < up.val * (1 : Flt binary32.fmt).val + (1 : Flt binary32.fmt).val * dn.val +
      (0 : Flt binary32.fmt).val * (0 : Flt binary32.fmt).val - (1 : Flt binary32.fmt).val
  rw [up_is.2, dn_is.2, Flt.one_val, Flt.zero_val]
  norm_num

/-- The box and the segment between (1 + 2^-13, 1, 0) and (1, 1 - 2^-13, 0) meet the hypotheses of `C161_center`. -/
example : CorrectlyRounded ((BBox.convert Flt.cast (⟨![1, dn, 0], ![up, 1, 0]⟩ : BBox (Flt binary32.fmt) 3) : BBox (Flt binary64.fmt) 3).center 0)
    (1 + 1 / 2 ^ 14) := by
  have h := (C161_center (⟨![1, dn, 0], ![up, 1, 0]⟩ : BBox (Flt binary32.fmt) 3) ⟨![1, dn, 0], ![up, 1, 0]⟩ (fun i => ⟨dn_fin i, up_fin i⟩)
    (fun i => ⟨dn_fin i, up_fin i⟩) 0).1
  have e : ((1 : Flt binary32.fmt).val + up.val) / 2 = 1 + 1 / 2 ^ 14 := by rw [up_is.2, Flt.one_val]; norm_num
  rw [← e]
  exact h

/-- The vector (1 + 2^-13, 1, 0) meets the hypotheses of `C161_length` and `C161_normalize`, with (1, 1 - 2^-13, 0) those of `C161_distance`, and there is a faithful square root. -/
example : ∃ s : Flt binary64.fmt → Flt binary64.fmt, FaithfulSqrt binary64 s ∧
    0 < (lengthG s (vconvert Flt.cast 3 ![up, 1, 0] : Vec (Flt binary64.fmt) 3)).val ∧
    0 < (distanceG s (vconvert Flt.cast 3 ![up, 1, 0] : Vec (Flt binary64.fmt) 3) (vconvert Flt.cast 3 ![1, dn, 0])).val := by
  obtain ⟨s, hs⟩ := exists_correctSqrt binary64
  exact ⟨s, hs.faithful, (C161_length (by norm_num) hs.faithful _ up_fin ⟨0, by show up.val ≠ 0; rw [up_is.2]; norm_num⟩).2.1,
    (C161_distance (by norm_num) hs.faithful _ _ up_fin dn_fin ⟨0, by
      show up.val ≠ (1 : Flt binary32.fmt).val; rw [up_is.2, Flt.one_val]; norm_num⟩).2.1⟩

/-- The vectors (1 + 2^-13, 1) and (1 - 2^-13, 1) meet the hypotheses of `C161_dot`, and a matrix of these numbers those of `C161_determinant`. -/
example : CorrectlyRounded (dot (vconvert Flt.cast 2 ![up, 1] : Vec (Flt binary64.fmt) 2) (vconvert Flt.cast 2 ![dn, 1])) (2 - 1 / 2 ^ 26) ∧
    CorrectlyRounded (computeDeterminant 1 (mconvert Flt.cast (![![up, 1], ![1, dn]] : Mat (Flt binary32.fmt) 2 2) : Mat (Flt binary64.fmt) 2 2))
      (-1 / 2 ^ 26) := by
  constructor
  · have h := C161_dot ![up, 1] ![dn, 1] (by intro i; fin_cases i; exacts [up_is.1, Flt.one_finite])
      (by intro i; fin_cases i; exacts [dn_is.1, Flt.one_finite])
    have e : up.val * dn.val + (1 : Flt binary32.fmt).val * (1 : Flt binary32.fmt).val = 2 - 1 / 2 ^ 26 := by
      rw [up_is.2, dn_is.2, Flt.one_val]; norm_num
    rw [← e]; exact h
  · have h := C161_determinant ![![up, 1], ![1, dn]] (by
      intro c r; fin_cases c <;> fin_cases r; exacts [up_is.1, Flt.one_finite, Flt.one_finite, dn_is.1])
    have e : up.val * dn.val - (1 : Flt binary32.fmt).val * (1 : Flt binary32.fmt).val = -1 / 2 ^ 26 := by
      rw [up_is.2, dn_is.2, Flt.one_val]; norm_num
    rw [← e]; exact h

end vm
