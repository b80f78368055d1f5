import Verif.Props.SFlt
import Verif.Props.FltMat
import Verif.Props.FltQuadratic

/-! C117, continued: identities that hold for the signs of zeros as well. -/

set_option linter.unusedSectionVars false
set_option linter.unusedSimpArgs false

namespace vm
open SFlt
variable {P : BinPar} {S R C : ℕ}
namespace SFlt

theorem signed_self (x : SFlt P.fmt) : signed x.signBit x.toFlt = x := by
  cases x with
  | negZero => rfl
  | of x =>
    unfold signed
    cases x with
    | fin q h =>
      by_cases hq : q = 0
      · subst hq
        simp [toFlt, signBit, Flt.isZeroB, Flt.isNegB]
      · simp [toFlt, signBit, Flt.isZeroB, hq]
    | _ => rfl

theorem one_sign : (1 : SFlt P.fmt).signBit = false := by
  show decide ((1 : ℚ) < 0) = false
  simp

theorem mul_one_s (x : SFlt P.fmt) : x * 1 = x := by
  show signed (x.signBit != (1 : SFlt P.fmt).signBit) (x.toFlt * 1) = x
  rw [one_sign, Flt.mul_one', Bool.bne_false]
  exact signed_self x

theorem neg_sign (x : SFlt P.fmt) (h : x.toFlt ≠ .nan) : (-x).signBit = !x.signBit := by
  show (signed (!x.signBit) (-x.toFlt)).signBit = _
  cases x with
  | negZero => show (signed false (-(0 : Flt P.fmt))).signBit = _; rw [Flt.neg_zero']; simp [signed, signBit, Flt.isNegB, Flt.isZeroB]
  | of x =>
    cases x with
    | nan => exact absurd rfl h
    | pinf => rfl
    | ninf => rfl
    | fin q hq =>
      show (signed (!decide (q < 0)) (Flt.fin (-q) _ : Flt P.fmt)).signBit = !decide (q < 0)
      rcases lt_trichotomy q 0 with h1 | h1 | h1
      · simp [signed, signBit, Flt.isNegB, Flt.isZeroB, h1, h1.ne, h1.le]
      · subst h1
        simp [signed, signBit, Flt.isNegB, Flt.isZeroB]
      · simp [signed, signBit, Flt.isNegB, Flt.isZeroB, h1, h1.ne', h1.le]

theorem neg_neg_s (x : SFlt P.fmt) : - -x = x := by
  have e : (-x).toFlt = -x.toFlt := hom.neg x
  by_cases h : x.toFlt = .nan
  · cases x with
    | negZero => cases h
    | of x => cases (show x = .nan from h); rfl
  · show signed (!(-x).signBit) (-(-x).toFlt) = x
    rw [neg_sign x h, e, Flt.neg_neg', Bool.not_not]
    exact signed_self x

theorem mul_neg_one_s (x : SFlt P.fmt) : x * -1 = -x := by
  show signed (x.signBit != (-1 : SFlt P.fmt).signBit) (x.toFlt * (-1 : SFlt P.fmt).toFlt) = signed (!x.signBit) (-x.toFlt)
  rw [neg_sign 1 (by intro h; cases h), one_sign]
  have e : (-1 : SFlt P.fmt).toFlt = -1 := hom.neg 1
  rw [e, Flt.mul_comm', Flt.neg_one_mul']
  simp

theorem div_one_s (x : SFlt P.fmt) : x / 1 = x := by
  show (if (1 : Flt P.fmt).isZeroB then _ else signed (x.signBit != (1 : SFlt P.fmt).signBit) (x.toFlt / 1) : SFlt P.fmt) = x
  have e1 : (1 : Flt P.fmt).isZeroB = false := by show decide ((1 : ℚ) = 0) = false; simp
  rw [e1, one_sign, Flt.div_one', Bool.bne_false]
  exact signed_self x

theorem sub_zero_s (x : SFlt P.fmt) : x - 0 = x := by
  show x + -0 = x
  have e : (-0 : SFlt P.fmt) = negZero := by
    show signed (!decide ((0 : ℚ) < 0)) (-(0 : Flt P.fmt)) = negZero
    rw [Flt.neg_zero']
    simp [signed, Flt.isZeroB]
  rw [e]
  show signed (if x.toFlt.isZeroB && (0 : Flt P.fmt).isZeroB then x.signBit && true else _) (x.toFlt + 0) = x
  rw [Flt.add_zero']
  have e1 : (0 : Flt P.fmt).isZeroB = true := rfl
  rw [e1, Bool.and_true, Bool.and_true]
  cases hz : x.toFlt.isZeroB
  · unfold signed
    rw [hz, Bool.false_and]
    cases x with
    | negZero => cases hz
    | of x => rfl
  · exact signed_self x

theorem sign_of_ne {z : Flt P.fmt} (hn : z ≠ .nan) (h0 : z.isZeroB = false) (q : ℚ) (h : z = Flt.round q) : z.isNegB = decide (q < 0) ∧ q ≠ 0 := by
  obtain ⟨_, h1, h2⟩ := FltQuad.round_sign (P := P) q
  rw [← h] at h1 h2
  cases z with
  | nan => exact absurd rfl hn
  | pinf => have := h2 rfl; exact ⟨by simp [Flt.isNegB, this.le], this.ne'⟩
  | ninf => have := h1 rfl; exact ⟨by simp [Flt.isNegB, this], this.ne⟩
  | fin r hr =>
    have hr0 : r ≠ 0 := by intro hc; subst hc; simp [Flt.isZeroB] at h0
    rcases lt_or_gt_of_ne hr0 with hl | hl
    · have := h1 (by rw [lt_zero_flt (show (Flt.fin r hr : Flt P.fmt).isFinite from trivial)]; exact decide_eq_true hl)
      exact ⟨by simp [Flt.isNegB, this, hl], this.ne⟩
    · have := h2 (by rw [zero_lt_flt (show (Flt.fin r hr : Flt P.fmt).isFinite from trivial)]; exact decide_eq_true hl)
      exact ⟨by simp only [Flt.isNegB, decide_eq_decide]; exact ⟨fun h => absurd h (not_lt.2 hl.le), fun h => absurd h (not_lt.2 this.le)⟩, this.ne'⟩

theorem sign_val (x : SFlt P.fmt) (hx : x.toFlt.isFinite) (h0 : x.toFlt.val ≠ 0) : x.signBit = decide (x.toFlt.val < 0) := by
  cases x with
  | negZero => exact absurd Flt.zero_val h0
  | of x =>
    cases x with
    | fin q h => rfl
    | _ => cases hx

theorem signed_sign {s : Bool} {z : Flt P.fmt} (h : z.isZeroB = true) : (signed s z).signBit = s := by
  unfold signed
  rw [h, Bool.true_and]
  cases s
  · cases z with
    | fin q hq =>
      have : q = 0 := by simpa [Flt.isZeroB] using h
      subst this
      simp [signBit, Flt.isNegB]
    | _ => cases h
  · rfl

end SFlt

/-- A product of two finite numbers has the sign bit that their signs determine, also if it is zero because a factor is zero or because it underflows;
a quotient of finite numbers by a number that is not zero likewise. -/
theorem C117_product_sign (x y : SFlt P.fmt) (hx : x.toFlt.isFinite) (hy : y.toFlt.isFinite) :
    (x * y).signBit = (x.signBit != y.signBit) ∧ (y.toFlt.val ≠ 0 → (x / y).signBit = (x.signBit != y.signBit)) := by
  have key : ∀ (z : Flt P.fmt) (q : ℚ), z = Flt.round q → (q ≠ 0 → (decide (q < 0)) = (x.signBit != y.signBit)) →
      (signed (x.signBit != y.signBit) z).signBit = (x.signBit != y.signBit) := by
    intro z q hz hq
    have hn : z ≠ .nan := by rw [hz]; exact (FltQuad.round_sign (P := P) q).1
    cases h0 : z.isZeroB
    · obtain ⟨h1, h2⟩ := sign_of_ne hn h0 q hz
      unfold signed
      rw [h0, Bool.false_and]
      show z.isNegB = _
      rw [h1]
      exact hq h2
    · exact signed_sign h0
  have sgn : ∀ a b : ℚ, a ≠ 0 → b ≠ 0 → (decide (a * b < 0)) = (decide (a < 0) != decide (b < 0)) := by
    intro a b ha hb
    have n1 : ∀ {c : ℚ}, 0 < c → (decide (c < 0)) = false := fun h => decide_eq_false (not_lt.2 h.le)
    rcases lt_or_gt_of_ne ha with h1 | h1 <;> rcases lt_or_gt_of_ne hb with h2 | h2
    · rw [n1 (mul_pos_of_neg_of_neg h1 h2), decide_eq_true h1, decide_eq_true h2]; rfl
    · rw [n1 h2, decide_eq_true h1, decide_eq_true (mul_neg_of_neg_of_pos h1 h2)]; rfl
    · rw [n1 h1, decide_eq_true h2, decide_eq_true (mul_neg_of_pos_of_neg h1 h2)]; rfl
    · rw [n1 h1, n1 h2, n1 (mul_pos h1 h2)]; rfl
  refine ⟨key _ _ (Flt.mul_eq hx hy) fun h => ?_, fun h => ?_⟩
  · have ha := left_ne_zero_of_mul h
    have hb := right_ne_zero_of_mul h
    rw [sign_val x hx ha, sign_val y hy hb]
    exact sgn _ _ ha hb
  · obtain ⟨k1, k2⟩ := Flt.eq_fin hx
    obtain ⟨k3, k4⟩ := Flt.eq_fin hy
    have hz : y.toFlt.isZeroB = false := by rw [k4]; simp [Flt.isZeroB, h]
    have e : x / y = signed (x.signBit != y.signBit) (x.toFlt / y.toFlt) := by
      show (if y.toFlt.isZeroB then _ else signed (x.signBit != y.signBit) (x.toFlt / y.toFlt) : SFlt P.fmt) = _
      rw [hz]; rfl
    rw [e]
    refine key _ (x.toFlt.val / y.toFlt.val) ?_ fun hq => ?_
    · conv_lhs => rw [k2, k4]
      exact div_fin k1 k3 h
    · have ha : x.toFlt.val ≠ 0 := fun hc => hq (by rw [hc, zero_div])
      rw [sign_val x hx ha, sign_val y hy h, ← sgn _ _ ha h, decide_eq_decide, div_neg_iff, mul_neg_iff]
      

/-- Negating a vector twice, multiplying or dividing it by one and subtracting `+0` do not change it, not even the sign of a zero; multiplying it by
minus one negates it. -/
theorem C117_identities (v : Vec (SFlt P.fmt) S) : - -v = v ∧ vscale v 1 = v ∧ vdivs v 1 = v ∧ vscale v (-1) = -v ∧ v - (fun _ => 0) = v :=
  ⟨funext fun i => neg_neg_s (v i), funext fun i => mul_one_s (v i), funext fun i => div_one_s (v i), funext fun i => mul_neg_one_s (v i),
    funext fun i => sub_zero_s (v i)⟩

/-- Adding `+0` changes `-0` to `+0`. -/
theorem C117_add_zero_fails : ∃ v : Vec (SFlt P.fmt) 3, v + (fun _ => 0) ≠ v := by
  refine ⟨fun _ => negZero, fun h => ?_⟩
  have h0 := congrFun h 0
  have : (negZero : SFlt P.fmt) + 0 = negZero := h0
  have h1 := add_negZero this
  exact absurd h1.2 (fun h => nomatch h)

/-- The hypotheses of `C117_product_sign` hold for `-0` and one, and the product is `-0`. -/
example : (negZero : SFlt binary64.fmt).toFlt.isFinite ∧ (1 : SFlt binary64.fmt).toFlt.isFinite ∧ (1 : SFlt binary64.fmt).toFlt.val ≠ 0 ∧
    (negZero : SFlt binary64.fmt) * 1 = negZero :=
  ⟨trivial, trivial, by show (1 : ℚ) ≠ 0; norm_num, mul_one_s _⟩

end vm
