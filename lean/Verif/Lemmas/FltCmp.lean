import Verif.Lemmas.FltGeom
import Verif.Lemmas.Order

/-! Helper lemmas: comparison of finite floats with rounded results, overflow included. -/

set_option linter.unusedSectionVars false
set_option linter.unusedSimpArgs false

namespace vm
variable {P : BinPar} {S : ℕ}

namespace Flt

theorem key_fin {a : Flt P.fmt} (h : a.isFinite) : IEEE.key a = some (Ext.ofRat a.val) := by
  obtain ⟨h1, h2⟩ := eq_fin h
  rw [h2]; rfl

theorem round_pinf {q : ℚ} (h : P.bound ≤ P.fl q) : (Flt.round q : Flt P.fmt) = Flt.pinf := by
  have hb := P.bound_pos
  have hn : ¬ |P.fl q| < P.bound := by rw [abs_of_nonneg (hb.le.trans h)]; exact not_lt.2 h
  have h0 : 0 < q := by
    by_contra hc
    have := P.fl_mono (not_lt.1 hc)
    rw [P.fl_zero] at this
    linarith
  apply Flt.key_inj
  have h1 : P.fmt.rnd q = ((⊤ : WithTop ℚ) : WithBot (WithTop ℚ)) := by
    show P.rnd q = _
    rw [BinPar.rnd, if_neg hn, if_pos h0]
  have : ∀ (x : Ext) (hx), x = ((⊤ : WithTop ℚ) : WithBot (WithTop ℚ)) →
      Flt.key (Flt.ofExt (F := P.fmt) x hx) = Flt.key (Flt.pinf : Flt P.fmt) := by
    intro x hx hxe
    subst hxe
    rfl
  exact this _ _ h1

theorem round_ninf {q : ℚ} (h : P.fl q ≤ -P.bound) : (Flt.round q : Flt P.fmt) = Flt.ninf := by
  have h1 : P.bound ≤ P.fl (-q) := by rw [P.fl_neg]; linarith
  have := round_pinf h1
  rw [Flt.round_neg] at this
  have h2 := congrArg Neg.neg this
  rw [Flt.neg_neg'] at h2
  exact h2

theorem abs_val_lt (a : Flt P.fmt) : |a.val| < P.bound := (rep_val a).2

/-- Comparison of a finite float with a rounded result. -/
theorem lt_round {x : Flt P.fmt} (hx : x.isFinite) (q : ℚ) : Cmp.lt x (Flt.round q) = decide (x.val < P.fl q) := by
  have hb := abs_lt.1 (abs_val_lt x)
  rcases lt_or_ge |P.fl q| P.bound with h | h
  · have hf : (Flt.round q : Flt P.fmt).isFinite := round_finite.2 h
    rw [lt_val hx hf, round_val hf]
  · rcases le_abs.1 h with h' | h'
    · rw [round_pinf h', lt_of_keys (key_fin hx) (show IEEE.key (Flt.pinf : Flt P.fmt) = some (⊤ : Ext) from rfl)]
      rw [decide_eq_true (show x.val < P.fl q by linarith)]
      exact decide_eq_true (WithBot.coe_lt_coe.2 (WithTop.coe_lt_top _))
    · rw [round_ninf (by linarith), lt_of_keys (key_fin hx) (show IEEE.key (Flt.ninf : Flt P.fmt) = some (⊥ : Ext) from rfl)]
      rw [decide_eq_false (show ¬ x.val < P.fl q by linarith)]
      exact decide_eq_false (fun h => Ext.not_le_bot _ (le_of_lt h))

theorem round_lt {x : Flt P.fmt} (hx : x.isFinite) (q : ℚ) : Cmp.lt (Flt.round q) x = decide (P.fl q < x.val) := by
  have hb := abs_lt.1 (abs_val_lt x)
  rcases lt_or_ge |P.fl q| P.bound with h | h
  · have hf : (Flt.round q : Flt P.fmt).isFinite := round_finite.2 h
    rw [lt_val hf hx, round_val hf]
  · rcases le_abs.1 h with h' | h'
    · rw [round_pinf h', lt_of_keys (show IEEE.key (Flt.pinf : Flt P.fmt) = some (⊤ : Ext) from rfl) (key_fin hx)]
      rw [decide_eq_false (show ¬ P.fl q < x.val by linarith)]
      exact decide_eq_false (fun h => Ext.top_not_le _ (le_of_lt h))
    · rw [round_ninf (by linarith), lt_of_keys (show IEEE.key (Flt.ninf : Flt P.fmt) = some (⊥ : Ext) from rfl) (key_fin hx)]
      rw [decide_eq_true (show P.fl q < x.val by linarith)]
      exact decide_eq_true (WithBot.bot_lt_coe _)

theorem round_le {x : Flt P.fmt} (hx : x.isFinite) (q : ℚ) : Cmp.le (Flt.round q) x = decide (P.fl q ≤ x.val) := by
  have hb := abs_lt.1 (abs_val_lt x)
  rcases lt_or_ge |P.fl q| P.bound with h | h
  · have hf : (Flt.round q : Flt P.fmt).isFinite := round_finite.2 h
    rw [lt_asymm_le hf hx, round_val hf]
  · rcases le_abs.1 h with h' | h'
    · rw [round_pinf h', le_of_keys (show IEEE.key (Flt.pinf : Flt P.fmt) = some (⊤ : Ext) from rfl) (key_fin hx)]
      rw [decide_eq_false (show ¬ P.fl q ≤ x.val by linarith)]
      exact decide_eq_false (Ext.top_not_le _)
    · rw [round_ninf (by linarith), le_of_keys (show IEEE.key (Flt.ninf : Flt P.fmt) = some (⊥ : Ext) from rfl) (key_fin hx)]
      rw [decide_eq_true (show P.fl q ≤ x.val by linarith)]
      exact decide_eq_true (le_of_lt (WithBot.bot_lt_coe _))

theorem le_round {x : Flt P.fmt} (hx : x.isFinite) (q : ℚ) : Cmp.le x (Flt.round q) = decide (x.val ≤ P.fl q) := by
  have hb := abs_lt.1 (abs_val_lt x)
  rcases lt_or_ge |P.fl q| P.bound with h | h
  · have hf : (Flt.round q : Flt P.fmt).isFinite := round_finite.2 h
    rw [lt_asymm_le hx hf, round_val hf]
  · rcases le_abs.1 h with h' | h'
    · rw [round_pinf h', le_of_keys (key_fin hx) (show IEEE.key (Flt.pinf : Flt P.fmt) = some (⊤ : Ext) from rfl)]
      rw [decide_eq_true (show x.val ≤ P.fl q by linarith)]
      exact decide_eq_true (Ext.le_top' _)
    · rw [round_ninf (by linarith), le_of_keys (key_fin hx) (show IEEE.key (Flt.ninf : Flt P.fmt) = some (⊥ : Ext) from rfl)]
      rw [decide_eq_false (show ¬ x.val ≤ P.fl q by linarith)]
      exact decide_eq_false (Ext.not_le_bot _)

theorem eq_self {x : Flt P.fmt} (hx : x.isFinite) : Cmp.eq x x = true := eq_self_of_key_some (key_fin hx)

theorem abs_round (q : ℚ) : vm.abs (Flt.round q : Flt P.fmt) = Flt.round |q| := by
  unfold vm.abs
  rw [round_lt zero_finite, zero_val]
  by_cases h : P.fl q < 0
  · have : q < 0 := by
      by_contra hc
      exact absurd (P.fl_nonneg (not_lt.1 hc)) (not_le.2 h)
    rw [decide_eq_true h, if_pos rfl, abs_of_neg this, Flt.round_neg]
  · rw [decide_eq_false h]
    simp only [Bool.false_eq_true, if_false]
    rcases le_or_gt 0 q with h0 | h0
    · rw [abs_of_nonneg h0]
    · have h1 : P.fl q = 0 := le_antisymm (by have := P.fl_mono h0.le; rwa [P.fl_zero] at this) (not_lt.1 h)
      have h2 : P.fl |q| = 0 := by rw [abs_of_neg h0, P.fl_neg, h1, neg_zero]
      have hb := P.bound_pos
      rw [P.round_eq (by rw [h1]; simpa using hb), P.round_eq (by rw [h2]; simpa using hb)]
      exact BinPar.fin_congr _ (h1.trans h2.symm)

end Flt

namespace BinPar

/-- Rounding a number to zero only happens below half of the least positive number. -/
theorem u_le (P : BinPar) : P.u ≤ 1 / 8 := by
  unfold u
  calc (2 : ℚ) ^ (-(P.p : ℤ)) ≤ 2 ^ (-3 : ℤ) := zpow_le_zpow_right₀ (by norm_num) (by have := P.hp; omega)
    _ = 1 / 8 := by norm_num

/-- A sum of two numbers of the format that is not zero is not rounded to zero. -/
theorem fl_sub_eq_zero {a b : ℚ} {P : BinPar} (ha : P.Rep a) (hb : P.Rep b) (h : P.fl (a - b) = 0) : a = b := by
  have h1 := fl_sub_err_u ha hb
  have h2 := P.u_le
  rw [h, zero_sub, abs_neg] at h1
  have h3 : |a - b| ≤ 0 := by nlinarith [abs_nonneg (a - b)]
  linarith [abs_nonpos_iff.1 h3]

end BinPar
end vm

namespace vm
variable {P : BinPar}
namespace Flt

theorem round_to {q r : ℚ} (hr : P.fmt.rep r) (h : P.fl q = r) : (Flt.round q : Flt P.fmt) = Flt.fin (F := P.fmt) r hr := by
  subst h
  exact BinPar.round_fl hr

theorem ext {a b : Flt P.fmt} (ha : a.isFinite) (hb : b.isFinite) (h : a.val = b.val) : a = b := by
  obtain ⟨h5, h6⟩ := Flt.eq_fin ha
  obtain ⟨h7, h8⟩ := Flt.eq_fin hb
  rw [h6, h8]
  exact BinPar.fin_congr _ h

theorem round_mono {x y : ℚ} (h : x ≤ y) : Cmp.le (Flt.round x : Flt P.fmt) (Flt.round y) = true := by
  rw [le_of_keys (Flt.key_round x) (Flt.key_round y)]
  exact decide_eq_true (P.fmt.rnd_mono h)

theorem int_finite {n : ℤ} (h : |n| ≤ 2 ^ P.p) : (Flt.round n : Flt P.fmt).isFinite ∧ (Flt.round n : Flt P.fmt).val = n := by
  rw [BinPar.round_rep (P.rep_of_int h)]; exact ⟨trivial, rfl⟩

theorem two_eq (P : BinPar) : (2 : Flt P.fmt).isFinite ∧ (2 : Flt P.fmt).val = 2 := by
  have h8 : (2 : ℤ) ^ 3 ≤ 2 ^ P.p := pow_le_pow_right₀ (by norm_num) P.hp
  have := int_finite (P := P) (n := 2) (by norm_num; linarith)
  push_cast at this
  exact this

theorem three_eq (P : BinPar) : (3 : Flt P.fmt).isFinite ∧ (3 : Flt P.fmt).val = 3 := by
  have h8 : (2 : ℤ) ^ 3 ≤ 2 ^ P.p := pow_le_pow_right₀ (by norm_num) P.hp
  have := int_finite (P := P) (n := 3) (by norm_num; linarith)
  push_cast at this
  exact this

theorem one_finite : (1 : Flt P.fmt).isFinite := trivial
theorem one_val : (1 : Flt P.fmt).val = 1 := rfl

/-- A rounded number is finite if it is between two numbers of the format. -/
theorem round_between {q a b : ℚ} (ha : P.fmt.rep a) (hb : P.fmt.rep b) (h1 : a ≤ q) (h2 : q ≤ b) :
    (Flt.round q : Flt P.fmt).isFinite ∧ (Flt.round q : Flt P.fmt).val = P.fl q ∧ a ≤ P.fl q ∧ P.fl q ≤ b := by
  have h3 := P.le_fl_of_rep ha.1 h1
  have h4 := P.fl_le_of_rep hb.1 h2
  have h5 : (Flt.round q : Flt P.fmt).isFinite :=
    round_finite.2 (abs_lt.2 ⟨by linarith [(abs_lt.1 ha.2).1], by linarith [(abs_lt.1 hb.2).2]⟩)
  exact ⟨h5, round_val h5, h3, h4⟩

end Flt
end vm
