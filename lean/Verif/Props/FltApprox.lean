import Verif.Props.Approx
import Verif.Props.FltLength
import Verif.Lemmas.FltCmp

/-!
# C142: approximate comparison in IEEE arithmetic

approx.h compares with `value - epsilon` and `value + epsilon`, which are rounded.  The mirrored operators round
`x + epsilon` and `x - epsilon` instead.
-/

set_option linter.unusedSectionVars false
set_option linter.unusedSimpArgs false

namespace vm
open BinPar
variable {P : BinPar} {S : ℕ}

namespace FltApx

theorem add_round {a b : Flt P.fmt} (ha : a.isFinite) (hb : b.isFinite) : a + b = Flt.round (a.val + b.val) :=
  Flt.add_eq ha hb

theorem sub_round {a b : Flt P.fmt} (ha : a.isFinite) (hb : b.isFinite) : a - b = Flt.round (a.val - b.val) :=
  Flt.sub_eq ha hb

theorem rep (a : Flt P.fmt) : P.Rep a.val := (Flt.rep_val a).1

/-- Different numbers of the format differ by at least a rounding unit of either. -/
theorem gap_pos {x y : ℚ} (hx : P.Rep x) (hy : P.Rep y) (h0 : 0 < x) (hne : y ≠ x) : P.u * x ≤ |y - x| := by
  obtain ⟨l, h1, h2⟩ : ∃ l : ℤ, (2 : ℚ) ^ l < x ∧ x ≤ 2 ^ (l + 1) := by
    have h := Int.zpow_log_le_self (b := 2) (by norm_num) h0
    have h' := Int.lt_zpow_succ_log_self (b := 2) (by norm_num) x
    push_cast at h h'
    rcases h.eq_or_lt with e | e
    · refine ⟨Int.log 2 x - 1, ?_, ?_⟩
      · exact lt_of_lt_of_le (zpow_lt_zpow_right₀ (by norm_num) (by omega)) h
      · rw [sub_add_cancel]; exact e.ge
    · exact ⟨_, e, h'.le⟩
  have h3 := gap_unit hx h1 hy hne
  refine le_trans ?_ h3
  have e : (2 : ℚ) ^ (l + 1 - (P.p : ℤ)) = P.u * 2 ^ (l + 1) := by
    unfold BinPar.u
    rw [← zpow_add₀ (by norm_num : (2 : ℚ) ≠ 0)]; congr 1; ring
  rw [e]
  exact mul_le_mul_of_nonneg_left h2 (u_pos P).le

theorem gap {x y : ℚ} (hx : P.Rep x) (hy : P.Rep y) (hne : y ≠ x) : P.u * |x| ≤ |y - x| := by
  rcases lt_trichotomy x 0 with h | h | h
  · have := gap_pos hx.neg hy.neg (by linarith) (fun h => hne (neg_injective h))
    rw [abs_of_neg h]
    rwa [show -y - -x = -(y - x) by ring, abs_neg] at this
  · rw [h, abs_zero, mul_zero]; exact abs_nonneg _
  · rw [abs_of_pos h]; exact gap_pos hx hy h hne

/-- A number that is changed by less than half a rounding unit is rounded back. -/
theorem absorb {v d : ℚ} (hv : P.Rep v) (hd : 2 * |d| < P.u * |v|) : P.fl (v + d) = v := by
  by_contra hne
  have h1 := P.fl_nearest hv (v + d)
  have h2 := gap hv (P.rep_fl (v + d)) hne
  have h3 : |P.fl (v + d) - v| ≤ |P.fl (v + d) - (v + d)| + |d| := by
    have := abs_add_le (P.fl (v + d) - (v + d)) d
    rwa [show P.fl (v + d) - (v + d) + d = P.fl (v + d) - v by ring] at this
  rw [show v - (v + d) = -d by ring, abs_neg] at h1
  linarith

/-- The rounded sum of 1 and minus half a rounding unit. -/
theorem fl_half (P : BinPar) : P.fl (1 - P.u / 2) = 1 := by
  have hp := P.hp
  have hmin := P.hmin
  have hu := P.u_le
  have hu0 := u_pos P
  have e : (2 : ℚ) ^ (-(P.p : ℤ)) = P.u := rfl
  have e2 : (((2 : ℤ) ^ P.p : ℤ) : ℚ) * P.u = 1 := by
    push_cast
    rw [← e, ← zpow_natCast, ← zpow_add₀ (by norm_num)]; simp
  have h := fl_eval_even (P := P) (q := 1 - P.u / 2) (-(P.p : ℤ)) (2 ^ P.p) (by omega)
    (by rw [show -(P.p : ℤ) + P.p - 1 = -1 by ring, abs_of_pos (by linarith)]; norm_num; linarith)
    (by rw [show -(P.p : ℤ) + P.p = 0 by ring, abs_of_pos (by linarith)]; norm_num; linarith)
    (by
      rw [e]
      have : (1 - P.u / 2) / P.u - (((2 : ℤ) ^ P.p : ℤ) : ℚ) = -(1 / 2) := by
        rw [div_sub' (ne_of_gt hu0), mul_comm P.u, e2]; field_simp; ring
      rw [this]; norm_num)
    (by
      obtain ⟨k, hk⟩ : ∃ k, P.p = k + 1 := ⟨P.p - 1, by omega⟩
      rw [hk, pow_succ]; omega)
  rw [h, e, e2]

theorem rep_u (P : BinPar) {k : ℤ} (h : -(2 * (P.p : ℤ)) ≤ k) (m : ℤ) (hm : |m| < 2 ^ P.p) : P.Rep (m * 2 ^ k) :=
  ⟨m, k, rfl, hm, by have := P.hmin; omega⟩

end FltApx

open FltApx

/-- Equality with an approximate value holds for all numbers within the tolerance, and only for numbers that are within the
tolerance and one rounding unit of value and tolerance. -/
theorem C142_equal {x : Flt P.fmt} {a : Approx (Flt P.fmt) (Flt P.fmt)} (hx : x.isFinite) (hv : a.value.isFinite)
    (he : a.epsilon.isFinite) :
    (|x.val - a.value.val| ≤ a.epsilon.val → approxEq x a = true) ∧
    (approxEq x a = true → |x.val - a.value.val| ≤ a.epsilon.val + P.u * (|a.value.val| + |a.epsilon.val|)) := by
  have hs : approxEq x a = (decide (P.fl (a.value.val - a.epsilon.val) ≤ x.val) &&
      decide (x.val ≤ P.fl (a.value.val + a.epsilon.val))) := by
    unfold approxEq
    rw [sub_round hv he, add_round hv he, Flt.round_le hx, Flt.le_round hx]
  rw [hs, Bool.and_eq_true, decide_eq_true_eq, decide_eq_true_eq]
  constructor
  · intro h
    obtain ⟨h1, h2⟩ := abs_le.1 h
    exact ⟨P.fl_le_of_rep (rep x) (by linarith), P.le_fl_of_rep (rep x) (by linarith)⟩
  · rintro ⟨h1, h2⟩
    have h3 := abs_le.1 (fl_sub_err_u (rep a.value) (rep a.epsilon))
    have h4 := abs_le.1 (fl_add_err_u (rep a.value) (rep a.epsilon))
    have h5 := mul_le_mul_of_nonneg_left (abs_sub a.value.val a.epsilon.val) (u_pos P).le
    have h6 := mul_le_mul_of_nonneg_left (abs_add_le a.value.val a.epsilon.val) (u_pos P).le
    rw [abs_le]
    constructor <;> linarith [h3.1, h3.2, h4.1, h4.2]

/-- `x < approx(v)` and `approx(v) > x` hold only if `x` is less than `v` by more than the tolerance, and both hold if it is
less by more than the tolerance and one rounding unit of the numbers; likewise `x > approx(v)` and `approx(v) < x`. -/
theorem C142_less {x : Flt P.fmt} {a : Approx (Flt P.fmt) (Flt P.fmt)} (hx : x.isFinite) (hv : a.value.isFinite)
    (he : a.epsilon.isFinite) :
    ((approxLt x a = true ∨ gtApprox a x = true) → a.epsilon.val < a.value.val - x.val) ∧
    (a.epsilon.val + P.u * (max |x.val| |a.value.val| + |a.epsilon.val|) < a.value.val - x.val →
      approxLt x a = true ∧ gtApprox a x = true) ∧
    ((approxGt x a = true ∨ ltApprox a x = true) → a.epsilon.val < x.val - a.value.val) ∧
    (a.epsilon.val + P.u * (max |x.val| |a.value.val| + |a.epsilon.val|) < x.val - a.value.val →
      approxGt x a = true ∧ ltApprox a x = true) := by
  have s1 : approxLt x a = decide (x.val < P.fl (a.value.val - a.epsilon.val)) := by
    unfold approxLt; rw [sub_round hv he, Flt.lt_round hx]
  have s2 : gtApprox a x = decide (P.fl (x.val + a.epsilon.val) < a.value.val) := by
    unfold gtApprox; rw [add_round hx he, Flt.round_lt hv]
  have s3 : approxGt x a = decide (P.fl (a.value.val + a.epsilon.val) < x.val) := by
    unfold approxGt; rw [add_round hv he, Flt.round_lt hx]
  have s4 : ltApprox a x = decide (a.value.val < P.fl (x.val - a.epsilon.val)) := by
    unfold ltApprox; rw [sub_round hx he, Flt.lt_round hv]
  rw [s1, s2, s3, s4]
  simp only [decide_eq_true_eq]
  have hu := u_pos P
  have m1 := le_max_left |x.val| |a.value.val|
  have m2 := le_max_right |x.val| |a.value.val|
  have e1 := abs_le.1 (fl_sub_err_u (rep a.value) (rep a.epsilon))
  have e2 := abs_le.1 (fl_add_err_u (rep a.value) (rep a.epsilon))
  have e3 := abs_le.1 (fl_sub_err_u (rep x) (rep a.epsilon))
  have e4 := abs_le.1 (fl_add_err_u (rep x) (rep a.epsilon))
  have b1 : P.u * |a.value.val - a.epsilon.val| ≤ P.u * (max |x.val| |a.value.val| + |a.epsilon.val|) :=
    mul_le_mul_of_nonneg_left ((abs_sub _ _).trans (by linarith)) hu.le
  have b2 : P.u * |a.value.val + a.epsilon.val| ≤ P.u * (max |x.val| |a.value.val| + |a.epsilon.val|) :=
    mul_le_mul_of_nonneg_left ((abs_add_le _ _).trans (by linarith)) hu.le
  have b3 : P.u * |x.val - a.epsilon.val| ≤ P.u * (max |x.val| |a.value.val| + |a.epsilon.val|) :=
    mul_le_mul_of_nonneg_left ((abs_sub _ _).trans (by linarith)) hu.le
  have b4 : P.u * |x.val + a.epsilon.val| ≤ P.u * (max |x.val| |a.value.val| + |a.epsilon.val|) :=
    mul_le_mul_of_nonneg_left ((abs_add_le _ _).trans (by linarith)) hu.le
  refine ⟨?_, fun h => ⟨by linarith [e1.1], by linarith [e4.2]⟩, ?_, fun h => ⟨by linarith [e2.2], by linarith [e3.1]⟩⟩
  · rintro (h | h) <;> by_contra hc <;> rw [not_lt] at hc
    · exact absurd (P.fl_le_of_rep (rep x) (by linarith : a.value.val - a.epsilon.val ≤ x.val)) (not_le.2 h)
    · exact absurd (P.le_fl_of_rep (rep a.value) (by linarith : a.value.val ≤ x.val + a.epsilon.val)) (not_le.2 h)
  · rintro (h | h) <;> by_contra hc <;> rw [not_lt] at hc
    · exact absurd (P.le_fl_of_rep (rep x) (by linarith : x.val ≤ a.value.val + a.epsilon.val)) (not_le.2 h)
    · exact absurd (P.fl_le_of_rep (rep a.value) (by linarith : x.val - a.epsilon.val ≤ a.value.val)) (not_le.2 h)

/-- A tolerance below half a rounding unit of the value has no effect: only the value itself is approximately equal. -/
theorem C142_large {x : Flt P.fmt} {a : Approx (Flt P.fmt) (Flt P.fmt)} (hx : x.isFinite) (hv : a.value.isFinite)
    (he : a.epsilon.isFinite) (h0 : 0 ≤ a.epsilon.val) (h : 2 * a.epsilon.val < P.u * |a.value.val|) :
    approxEq x a = true ↔ x = a.value := by
  have h1 := absorb (P := P) (d := a.epsilon.val) (rep a.value) (by rwa [abs_of_nonneg h0])
  have h2 := absorb (P := P) (d := -a.epsilon.val) (rep a.value) (by rwa [abs_neg, abs_of_nonneg h0])
  unfold approxEq
  rw [sub_round hv he, add_round hv he, Flt.round_le hx, Flt.le_round hx, Bool.and_eq_true, decide_eq_true_eq,
    decide_eq_true_eq, h1, sub_eq_add_neg, h2]
  constructor
  · rintro ⟨h3, h4⟩; exact Flt.ext hx hv (le_antisymm h4 h3)
  · rintro rfl; exact ⟨le_rfl, le_rfl⟩

/-- The mirrored operators disagree in every format: there are numbers with `x < approx(v)` but not `approx(v) > x`, and with
`approx(v) <= x` as well. -/
theorem C142_mirrored_fails (P : BinPar) : ∃ (x : Flt P.fmt) (a : Approx (Flt P.fmt) (Flt P.fmt)), x.isFinite ∧
    a.value.isFinite ∧ a.epsilon.isFinite ∧ 0 ≤ a.epsilon.val ∧ approxLt x a = true ∧ gtApprox a x = false ∧
      leApprox a x = true := by
  have hp := P.hp
  have hmin := P.hmin
  have hb : (1 : ℚ) < P.bound := by
    have := (Flt.rep_val (1 : Flt P.fmt)).2
    rwa [Flt.one_val, abs_one] at this
  have hu := P.u_le
  have hu0 := u_pos P
  have hpow : (1 : ℤ) < 2 ^ P.p := one_lt_pow₀ (by norm_num) (by omega)
  have r1 : P.fmt.rep (P.u / 2) := by
    refine ⟨?_, by rw [abs_of_pos (by linarith)]; linarith⟩
    have := rep_u P (k := -(P.p : ℤ) - 1) (by omega) 1 (by simpa using hpow)
    rw [Int.cast_one, one_mul, zpow_sub₀ (by norm_num : (2 : ℚ) ≠ 0), zpow_one] at this
    exact this
  have r2 : P.fmt.rep (1 - P.u) := by
    refine ⟨?_, by rw [abs_of_pos (by linarith)]; linarith⟩
    have := rep_u P (k := -(P.p : ℤ)) (by omega) (2 ^ P.p - 1) (by rw [abs_of_pos (by linarith)]; linarith)
    push_cast at this
    rw [sub_mul, one_mul, ← zpow_natCast, ← zpow_add₀ (by norm_num : (2 : ℚ) ≠ 0)] at this
    simpa [BinPar.u] using this
  have fx : (Flt.fin (F := P.fmt) (1 - P.u) r2).isFinite := trivial
  have fe : (Flt.fin (F := P.fmt) (P.u / 2) r1).isFinite := trivial
  have f1 : (1 : Flt P.fmt).isFinite := trivial
  have hfl := fl_half P
  have vx : (Flt.fin (F := P.fmt) (1 - P.u) r2).val = 1 - P.u := rfl
  have ve : (Flt.fin (F := P.fmt) (P.u / 2) r1).val = P.u / 2 := rfl
  refine ⟨Flt.fin (F := P.fmt) (1 - P.u) r2, ⟨1, Flt.fin (F := P.fmt) (P.u / 2) r1⟩, fx, f1, fe, ?_, ?_, ?_, ?_⟩
  · show (0 : ℚ) ≤ P.u / 2; linarith
  · unfold approxLt
    rw [sub_round f1 fe, Flt.lt_round fx, decide_eq_true_eq, Flt.one_val, vx, ve, hfl]; linarith
  · unfold gtApprox
    rw [add_round fx fe, Flt.round_lt f1, decide_eq_false_iff_not, Flt.one_val, vx, ve,
      show 1 - P.u + P.u / 2 = 1 - P.u / 2 by ring, hfl]
    exact lt_irrefl _
  · unfold leApprox
    rw [add_round fx fe, Flt.le_round f1, decide_eq_true_eq, Flt.one_val, vx, ve,
      show 1 - P.u + P.u / 2 = 1 - P.u / 2 by ring, hfl]

/-- Infinities: with a finite tolerance only the infinity itself is approximately equal to an infinity; with an infinite
tolerance nothing is, while every number is approximately equal to a finite value. -/
theorem C142_infinite (x : Flt P.fmt) {e v : Flt P.fmt} (he : e.isFinite) (hv : v.isFinite) :
    (approxEq x ⟨Flt.pinf, e⟩ = true ↔ x = Flt.pinf) ∧ (approxEq x ⟨Flt.ninf, e⟩ = true ↔ x = Flt.ninf) ∧
      approxEq x ⟨Flt.pinf, Flt.pinf⟩ = false ∧ approxEq x ⟨Flt.ninf, Flt.pinf⟩ = false ∧
      (approxEq x ⟨v, Flt.pinf⟩ = true ↔ isNan x = false) := by
  rcases e with _ | _ | _ | ⟨e, he'⟩ <;> try exact False.elim he
  rcases v with _ | _ | _ | ⟨v, hv'⟩ <;> try exact False.elim hv
  have c1 : ∀ y : Flt P.fmt, Cmp.le Flt.nan y = false ∧ Cmp.le y Flt.nan = false := by
    intro y; rcases y with _ | _ | _ | ⟨y, hy⟩ <;> exact ⟨rfl, rfl⟩
  refine ⟨?_, ?_, ?_, ?_, ?_⟩
  · show (Cmp.le (Flt.pinf : Flt P.fmt) x && Cmp.le x Flt.pinf) = true ↔ _
    rcases x with _ | _ | _ | ⟨x, hx⟩
    · simp [c1]
    · constructor <;> intro h <;> cases h
    · simp; rfl
    · constructor <;> intro h <;> cases h
  · show (Cmp.le (Flt.ninf : Flt P.fmt) x && Cmp.le x Flt.ninf) = true ↔ _
    rcases x with _ | _ | _ | ⟨x, hx⟩
    · simp [c1]
    · simp; rfl
    · constructor <;> intro h <;> cases h
    · constructor <;> intro h <;> cases h
  · show (Cmp.le (Flt.nan : Flt P.fmt) x && _) = false
    rw [(c1 x).1]; rfl
  · show (_ && Cmp.le x (Flt.nan : Flt P.fmt)) = false
    rw [(c1 x).2, Bool.and_false]
  · show (Cmp.le (Flt.ninf : Flt P.fmt) x && Cmp.le x Flt.pinf) = true ↔ _
    rcases x with _ | _ | _ | ⟨x, hx⟩
    · rw [(c1 _).2]
      constructor <;> intro h
      · exact absurd h (by simp)
      · exact absurd h (by rw [(isNan_iff_key (Flt.nan : Flt P.fmt)).2 rfl]; simp)
    all_goals
      refine ⟨fun _ => ?_, fun _ => rfl⟩
      rw [← Bool.not_eq_true, isNan_iff_key]
      intro h; cases h

/-- Vectors: with a finite tolerance that is not negative a vector is approximately equal exactly if each component is
approximately equal as a scalar or both components are NaN, so vectors with NaN are equal though the scalars are not. -/
theorem C142_vector (x : Vec (Flt P.fmt) S) (a : Approx (Vec (Flt P.fmt) S) (Flt P.fmt)) (he : a.epsilon.isFinite) :
    approxVecEq x a = true ↔ ∀ i, approxEq (x i) ⟨a.value i, a.epsilon⟩ = true ∨
      (isNan (x i) = true ∧ isNan (a.value i) = true) := by
  rw [approxVecEq, visEqual, beq_iff_eq, vcompare]
  have step : ∀ p q e : Flt P.fmt, e.isFinite → (compareStep p q e = none ↔
      approxEq p ⟨q, e⟩ = true ∨ (isNan p = true ∧ isNan q = true)) := by
    intro p q e he
    have hn : ∀ y : Flt P.fmt, (Cmp.eq y y = true ∧ isNan y = false ∧ ∃ k, IEEE.key y = some k) ∨
        (Cmp.eq y y = false ∧ isNan y = true ∧ IEEE.key y = none) := by
      intro y
      rcases h : IEEE.key y with _ | k
      · exact Or.inr ⟨isNan_of_key_none h, (isNan_iff_key y).2 h, rfl⟩
      · exact Or.inl ⟨eq_self_of_key_some h, by unfold isNan; rw [eq_self_of_key_some h]; rfl, k, rfl⟩
    have hkey : (∃ k, IEEE.key q = some k) → (∃ k, IEEE.key (q - e) = some k) ∧ ∃ k, IEEE.key (q + e) = some k := by
      rintro ⟨k, hk⟩
      rcases e with _ | _ | _ | ⟨e, he'⟩ <;> try exact False.elim he
      rcases q with _ | _ | _ | ⟨q, hq'⟩
      · cases hk
      · exact ⟨⟨_, rfl⟩, _, rfl⟩
      · exact ⟨⟨_, rfl⟩, _, rfl⟩
      · exact ⟨⟨_, Flt.key_round (F := P.fmt) (q + -e)⟩, _, Flt.key_round (F := P.fmt) (q + e)⟩
    unfold compareStep approxEq
    rcases hn p with ⟨p1, p2, k, hk⟩ | ⟨p1, p2, hk⟩ <;> rcases hn q with ⟨q1, q2, l, hl⟩ | ⟨q1, q2, hl⟩
    · obtain ⟨⟨lo, h1⟩, hi, h2⟩ := hkey ⟨l, hl⟩
      simp only [p1, q1, p2, q2, lt_of_keys hk h1, lt_of_keys h2 hk, le_of_keys h1 hk, le_of_keys hk h2]
      rcases lt_or_ge k lo with h3 | h3 <;> rcases lt_or_ge hi k with h4 | h4
      · simp [h3, h4, h3.not_ge]
      · simp [h3, h4, h3.not_ge]
      · simp [h3, h4, h3.not_gt, h4.not_ge]
      · simp [h3, h4, h3.not_gt, h4.not_gt]
    · have : q - e = Flt.nan := by
        rcases q with _ | _ | _ | ⟨q, hq'⟩ <;> first | rfl | cases hl
      have c : Cmp.le (q - e) p = false := by rw [this]; rcases p with _ | _ | _ | ⟨p, hp⟩ <;> rfl
      simp [p1, q1, p2, q2, c]
    · have c : Cmp.le (q - e) p = false := by
        by_contra hc
        rw [Bool.not_eq_false, IEEE.le_iff] at hc
        obtain ⟨s, t, hs, ht, -⟩ := hc
        rw [hk] at ht; cases ht
      simp [p1, q1, p2, q2, c]
    · simp [p1, q1, p2, q2]
  have hz : ∀ i, compareStep (x i) (a.value i) a.epsilon ≠ some 0 := by
    intro i
    unfold compareStep
    simp only []
    split_ifs <;> simp
  constructor
  · intro h i
    rw [← step _ _ _ he]
    rcases hf : (List.finRange S).findSome? fun i => compareStep (x i) (a.value i) a.epsilon with _ | r
    · exact (findSome_finRange_eq_none _).1 hf i
    · rw [hf, Option.getD_some] at h
      obtain ⟨j, hj, -⟩ := (findSome_finRange_eq_some _ _).1 hf
      exact absurd (h ▸ hj) (hz j)
  · intro h
    have : (List.finRange S).findSome? (fun i => compareStep (x i) (a.value i) a.epsilon) = none :=
      (findSome_finRange_eq_none _).2 fun i => (step _ _ _ he).2 (h i)
    rw [this]; rfl

/-- The hypotheses are met by 1 and a tolerance of 1, by 1 and tolerance 0 and by vectors with NaN; NaN is equal to an
approximate NaN as a component of a vector, not as a scalar. -/
example : (1 : Flt binary64.fmt).isFinite ∧ (0 : Flt binary64.fmt).isFinite ∧
    2 * (0 : Flt binary64.fmt).val < binary64.u * |(1 : Flt binary64.fmt).val| ∧
    approxEq (Flt.nan : Flt binary64.fmt) ⟨Flt.nan, 1⟩ = false ∧
    approxVecEq (![1, Flt.nan] : Vec (Flt binary64.fmt) 2) ⟨![1, Flt.nan], 0⟩ = true := by
  refine ⟨trivial, trivial, ?_, (C75_nan _ _ ((isNan_iff_key _).2 rfl)).2.1, ?_⟩
  · rw [Flt.one_val, Flt.zero_val, abs_one, mul_zero, mul_one]; exact u_pos _
  · rw [C142_vector _ _ Flt.zero_finite]
    intro i
    fin_cases i
    · left
      refine (C142_equal (x := (1 : Flt binary64.fmt)) (a := ⟨1, 0⟩) trivial trivial trivial).1 ?_
      simp [Flt.one_val, Flt.zero_val]
    · exact Or.inr ⟨(isNan_iff_key _).2 rfl, (isNan_iff_key _).2 rfl⟩

end vm
