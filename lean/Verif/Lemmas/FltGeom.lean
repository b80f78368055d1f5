import Verif.Lemmas.FltError
import Verif.Model.Geom
import Mathlib.Algebra.BigOperators.Fin

/-! Helper lemmas: values of floating point expressions, error of the dot product. -/

set_option linter.unusedSectionVars false
set_option linter.unusedSimpArgs false

namespace vm
variable {P : BinPar} {S : ℕ}

namespace BinPar

/-- Unit roundoff. -/
def u (P : BinPar) : ℚ := 2 ^ (-(P.p : ℤ))

/-- Half of the least positive number. -/
def eta (P : BinPar) : ℚ := 2 ^ (P.qmin - 1)

theorem u_pos (P : BinPar) : 0 < P.u := two_zpow_pos _
theorem eta_pos (P : BinPar) : 0 < P.eta := two_zpow_pos _

theorem fl_err_u (q : ℚ) : |P.fl q - q| ≤ P.u * |q| + P.eta := fl_err_abs q
theorem fl_add_err_u {a b : ℚ} (ha : P.Rep a) (hb : P.Rep b) : |P.fl (a + b) - (a + b)| ≤ P.u * |a + b| := fl_add_err ha hb
theorem fl_sub_err_u {a b : ℚ} (ha : P.Rep a) (hb : P.Rep b) : |P.fl (a - b) - (a - b)| ≤ P.u * |a - b| := fl_sub_err ha hb

end BinPar

namespace Flt

theorem val_fin {q : ℚ} (h : P.fmt.rep q) : (Flt.fin q h : Flt P.fmt).val = q := rfl

theorem eq_fin {a : Flt P.fmt} (h : a.isFinite) : ∃ hr : P.fmt.rep a.val, a = Flt.fin (F := P.fmt) a.val hr := by
  rcases a with _ | _ | _ | ⟨q, hq⟩
  · exact h.elim
  · exact h.elim
  · exact h.elim
  · exact ⟨hq, rfl⟩

theorem rep_val (a : Flt P.fmt) : P.fmt.rep a.val := by
  rcases a with _ | _ | _ | ⟨q, hq⟩
  · exact P.fmt.rep_zero
  · exact P.fmt.rep_zero
  · exact P.fmt.rep_zero
  · exact hq

theorem round_finite {q : ℚ} : (Flt.round q : Flt P.fmt).isFinite ↔ |P.fl q| < P.bound := by
  constructor
  · intro h
    by_contra hc
    have e : (Flt.round q : Flt P.fmt) = Flt.ofExt (P.rnd q) (fun _ h => P.fmt.rep_rnd h) := rfl
    have e2 : P.rnd q = ((⊤ : WithTop ℚ) : WithBot (WithTop ℚ)) ∨ P.rnd q = ⊥ := by
      unfold BinPar.rnd
      rw [if_neg hc]
      by_cases h0 : 0 < q
      · left; rw [if_pos h0]
      · right; rw [if_neg h0]
    rw [e] at h
    rcases e2 with e2 | e2
    · revert h
      generalize_proofs pf
      revert pf
      rw [e2]
      intro pf h
      exact h
    · revert h
      generalize_proofs pf
      revert pf
      rw [e2]
      intro pf h
      exact h
  · intro h
    rw [P.round_eq h]; trivial

theorem round_val {q : ℚ} (h : (Flt.round q : Flt P.fmt).isFinite) : (Flt.round q : Flt P.fmt).val = P.fl q := by
  rw [P.round_eq (round_finite.1 h)]; rfl

theorem add_eq {a b : Flt P.fmt} (ha : a.isFinite) (hb : b.isFinite) : a + b = Flt.round (a.val + b.val) := by
  obtain ⟨h1, h2⟩ := eq_fin ha
  obtain ⟨h3, h4⟩ := eq_fin hb
  rw [h2, h4]; rfl

theorem mul_eq {a b : Flt P.fmt} (ha : a.isFinite) (hb : b.isFinite) : a * b = Flt.round (a.val * b.val) := by
  obtain ⟨h1, h2⟩ := eq_fin ha
  obtain ⟨h3, h4⟩ := eq_fin hb
  rw [h2, h4]; rfl

theorem neg_finite {a : Flt P.fmt} : (-a).isFinite ↔ a.isFinite := by
  rcases a with _ | _ | _ | ⟨q, hq⟩ <;> exact Iff.rfl

theorem neg_val (a : Flt P.fmt) : (-a).val = -a.val := by
  rcases a with _ | _ | _ | ⟨q, hq⟩
  · exact neg_zero.symm
  · exact neg_zero.symm
  · exact neg_zero.symm
  · rfl

theorem sub_eq {a b : Flt P.fmt} (ha : a.isFinite) (hb : b.isFinite) : a - b = Flt.round (a.val - b.val) := by
  show a + -b = _
  rw [add_eq ha (neg_finite.2 hb), neg_val, ← sub_eq_add_neg]

theorem add_finite {a b : Flt P.fmt} (h : (a + b).isFinite) : a.isFinite ∧ b.isFinite := by
  rcases a with _ | _ | _ | ⟨q, hq⟩ <;> rcases b with _ | _ | _ | ⟨r, hr⟩ <;>
    first | exact ⟨trivial, trivial⟩ | exact absurd h (by intro h; exact h)

theorem infTimes_not_finite (q : ℚ) : ¬ (Flt.infTimes q : Flt P.fmt).isFinite := by
  unfold Flt.infTimes
  split_ifs <;> exact fun h => h

theorem mul_finite {a b : Flt P.fmt} (h : (a * b).isFinite) : a.isFinite ∧ b.isFinite := by
  rcases a with _ | _ | _ | ⟨q, hq⟩ <;> rcases b with _ | _ | _ | ⟨r, hr⟩ <;>
    first | exact ⟨trivial, trivial⟩ | exact absurd h (by intro h; exact h) | exact absurd h (infTimes_not_finite _)

theorem sub_finite {a b : Flt P.fmt} (h : (a - b).isFinite) : a.isFinite ∧ b.isFinite := by
  have := add_finite (show (a + -b).isFinite from h)
  exact ⟨this.1, neg_finite.1 this.2⟩

theorem add_val {a b : Flt P.fmt} (h : (a + b).isFinite) : (a + b).val = P.fl (a.val + b.val) := by
  obtain ⟨ha, hb⟩ := add_finite h
  rw [add_eq ha hb] at h ⊢
  exact round_val h

theorem mul_val {a b : Flt P.fmt} (h : (a * b).isFinite) : (a * b).val = P.fl (a.val * b.val) := by
  obtain ⟨ha, hb⟩ := mul_finite h
  rw [mul_eq ha hb] at h ⊢
  exact round_val h

theorem sub_val {a b : Flt P.fmt} (h : (a - b).isFinite) : (a - b).val = P.fl (a.val - b.val) := by
  obtain ⟨ha, hb⟩ := sub_finite h
  rw [sub_eq ha hb] at h ⊢
  exact round_val h

theorem zero_finite : (0 : Flt P.fmt).isFinite := trivial
theorem zero_val : (0 : Flt P.fmt).val = 0 := rfl

theorem lt_val {a b : Flt P.fmt} (ha : a.isFinite) (hb : b.isFinite) : Cmp.lt a b = decide (a.val < b.val) := by
  obtain ⟨h1, h2⟩ := eq_fin ha
  obtain ⟨h3, h4⟩ := eq_fin hb
  rw [h2, h4, BinPar.lt_fin]; rfl

theorem lt_asymm_le {a b : Flt P.fmt} (ha : a.isFinite) (hb : b.isFinite) : Cmp.le a b = decide (a.val ≤ b.val) := by
  obtain ⟨h1, h2⟩ := eq_fin ha
  obtain ⟨h3, h4⟩ := eq_fin hb
  rw [h2, h4]
  show decide (Ext.ofRat _ ≤ Ext.ofRat _) = _
  rw [decide_eq_decide]
  exact WithBot.coe_le_coe.trans WithTop.coe_le_coe

end Flt

/-! ### The dot product -/

theorem dot_succ' {T : Type*} [Zero T] [Add T] [Mul T] (a b : Vec T (S + 1)) :
    dot a b = dot (fun i : Fin S => a i.castSucc) (fun i => b i.castSucc) + a (Fin.last S) * b (Fin.last S) := by
  unfold dot
  rw [Fin.foldl_succ_last]

/-- The exact dot product of the values. -/
def exactDot (a b : Vec (Flt P.fmt) S) : ℚ := ∑ i, (a i).val * (b i).val

/-- The sum of the absolute values of the products. -/
def absDot (a b : Vec (Flt P.fmt) S) : ℚ := ∑ i, |(a i).val * (b i).val|

theorem absDot_nonneg (a b : Vec (Flt P.fmt) S) : 0 ≤ absDot a b := Finset.sum_nonneg fun _ _ => abs_nonneg _

theorem exactDot_succ (a b : Vec (Flt P.fmt) (S + 1)) :
    exactDot a b = exactDot (fun i : Fin S => a i.castSucc) (fun i => b i.castSucc) + (a (Fin.last S)).val * (b (Fin.last S)).val :=
  Fin.sum_univ_castSucc _

theorem absDot_succ (a b : Vec (Flt P.fmt) (S + 1)) :
    absDot a b = absDot (fun i : Fin S => a i.castSucc) (fun i => b i.castSucc) + |(a (Fin.last S)).val * (b (Fin.last S)).val| :=
  Fin.sum_univ_castSucc _

/-- Bound of the error of a dot product with `n` terms. -/
def dotErr (P : BinPar) (n : ℕ) (A : ℚ) : ℚ := ((1 + P.u) ^ n - 1) * A + n * (1 + P.u) ^ n * P.eta

theorem dot_finite_terms : ∀ {S : ℕ} (a b : Vec (Flt P.fmt) S), (dot a b).isFinite → ∀ i, (a i).isFinite ∧ (b i).isFinite
  | 0, _, _, _ => fun i => i.elim0
  | S + 1, a, b, h => by
    rw [dot_succ'] at h
    obtain ⟨h1, h2⟩ := Flt.add_finite h
    have := dot_finite_terms _ _ h1
    intro i
    induction i using Fin.lastCases with
    | last => exact Flt.mul_finite h2
    | cast i => exact this i

/-- One step of the summation. -/
theorem dotErr_step (n : ℕ) (hn : 0 < n) {A ab s m x : ℚ} (hx : |x| ≤ A) (hs : |s - x| ≤ dotErr P n A)
    {t : ℚ} (hm : |m - t| ≤ P.u * ab + P.eta) (ht : |t| ≤ ab)
    {r : ℚ} (hr : |r - (s + m)| ≤ P.u * |s + m|) : |r - (x + t)| ≤ dotErr P (n + 1) (A + ab) := by
  have hu := P.u_pos
  have he := P.eta_pos
  have hab : 0 ≤ ab := (abs_nonneg t).trans ht
  have h1 : |s + m| ≤ A + ab + dotErr P n A + (P.u * ab + P.eta) := by
    have e : s + m = x + t + (s - x) + (m - t) := by ring
    rw [e]
    refine (abs_add_le _ _).trans (add_le_add ((abs_add_le _ _).trans (add_le_add ((abs_add_le _ _).trans
      (add_le_add hx ht)) hs)) hm)
  have h2 : |r - (x + t)| ≤ |r - (s + m)| + |s - x| + |m - t| := by
    have e : r - (x + t) = (r - (s + m)) + (s - x) + (m - t) := by ring
    rw [e]
    exact (abs_add_le _ _).trans (add_le_add (abs_add_le _ _) le_rfl)
  have h3 : P.u * |s + m| ≤ P.u * (A + ab + dotErr P n A + (P.u * ab + P.eta)) := mul_le_mul_of_nonneg_left h1 hu.le
  have hpow : 1 + P.u ≤ (1 + P.u) ^ n := by
    have := pow_le_pow_right₀ (show (1 : ℚ) ≤ 1 + P.u by linarith) hn
    rwa [pow_one] at this
  have h4 : P.u * (A + ab + dotErr P n A + (P.u * ab + P.eta)) + dotErr P n A + (P.u * ab + P.eta) ≤ dotErr P (n + 1) (A + ab) := by
    unfold dotErr
    rw [pow_succ]
    push_cast
    set w := (1 + P.u) ^ n with hw
    have k1 : P.u * ab + P.u * ab + P.u * P.u * ab ≤ (w * (1 + P.u) - 1) * ab := by
      have : (1 + P.u) * (1 + P.u) ≤ w * (1 + P.u) := mul_le_mul_of_nonneg_right hpow (by linarith)
      nlinarith
    have k2 : (1 + P.u) * P.eta ≤ w * (1 + P.u) * P.eta := by
      have : (1 : ℚ) * (1 + P.u) ≤ w * (1 + P.u) := mul_le_mul_of_nonneg_right (by linarith) (by linarith)
      nlinarith
    nlinarith
  linarith

theorem dotErr_one {m t ab : ℚ} (hm : |m - t| ≤ P.u * ab + P.eta) : |m - t| ≤ dotErr P 1 ab := by
  have hu := P.u_pos
  have he := P.eta_pos
  unfold dotErr
  simp only [pow_one, Nat.cast_one]
  nlinarith

/-- Error of the computed dot product. -/
theorem dot_err : ∀ {S : ℕ} (a b : Vec (Flt P.fmt) S), (dot a b).isFinite →
    |(dot a b).val - exactDot a b| ≤ dotErr P S (absDot a b)
  | 0, a, b, _ => by
    have h1 : (dot a b).val = 0 := rfl
    simp [h1, exactDot, dotErr]
  | S + 1, a, b, h => by
    rw [dot_succ'] at h ⊢
    obtain ⟨h1, h2⟩ := Flt.add_finite h
    have ih := dot_err _ _ h1
    have hm := P.fl_err_u ((a (Fin.last S)).val * (b (Fin.last S)).val)
    rw [← Flt.mul_val h2] at hm
    rw [exactDot_succ, absDot_succ, Flt.add_val h]
    have hr := BinPar.fl_add_err_u (Flt.rep_val (dot (fun i : Fin S => a i.castSucc) (fun i => b i.castSucc))).1
      (Flt.rep_val (a (Fin.last S) * b (Fin.last S))).1
    rcases Nat.eq_zero_or_pos S with rfl | hS
    · have e1 : (dot (fun i : Fin 0 => a i.castSucc) (fun i => b i.castSucc)).val = 0 := rfl
      have e2 : exactDot (fun i : Fin 0 => a i.castSucc) (fun i => b i.castSucc) = 0 := rfl
      have e3 : absDot (fun i : Fin 0 => a i.castSucc) (fun i => b i.castSucc) = 0 := rfl
      simp only [e1, e2, e3, zero_add]
      rw [P.fl_rep (Flt.rep_val _).1]
      exact dotErr_one hm
    · refine dotErr_step S hS ?_ ih hm le_rfl hr
      exact Finset.abs_sum_le_sum_abs _ _

/-- Absence of overflow in the dot product. -/
theorem dot_finite : ∀ {S : ℕ} (a b : Vec (Flt P.fmt) S), (∀ i, (a i).isFinite) → (∀ i, (b i).isFinite) →
    absDot a b + dotErr P S (absDot a b) < P.bound → (dot a b).isFinite
  | 0, _, _, _, _, _ => trivial
  | S + 1, a, b, ha, hb, h => by
    have hu := P.u_pos
    have he := P.eta_pos
    rw [absDot_succ] at h
    have hA := absDot_nonneg (fun i : Fin S => a i.castSucc) (fun i => b i.castSucc)
    have hB := abs_nonneg ((a (Fin.last S)).val * (b (Fin.last S)).val)
    have hw : (1 : ℚ) ≤ (1 + P.u) ^ S := one_le_pow₀ (by linarith)
    have e : ∀ (n : ℕ) (A : ℚ), A + dotErr P n A = (1 + P.u) ^ n * A + n * (1 + P.u) ^ n * P.eta := by
      intro n A; unfold dotErr; ring
    have hS0 : (0 : ℚ) ≤ S := Nat.cast_nonneg S
    have h1 : (dot (fun i : Fin S => a i.castSucc) (fun i => b i.castSucc)).isFinite := by
      refine dot_finite _ _ (fun i => ha _) (fun i => hb _) (lt_of_le_of_lt ?_ h)
      rw [e, e, pow_succ]
      push_cast
      set w := (1 + P.u) ^ S
      set A := absDot (fun i : Fin S => a i.castSucc) (fun i => b i.castSucc)
      set B := |(a (Fin.last S)).val * (b (Fin.last S)).val|
      have k1 : w * A ≤ w * (1 + P.u) * (A + B) := by
        have : 0 ≤ w * (P.u * A + (1 + P.u) * B) := by positivity
        nlinarith
      have k2 : (S : ℚ) * w * P.eta ≤ (S + 1) * (w * (1 + P.u)) * P.eta := by
        have : 0 ≤ (S * w * P.u + w * (1 + P.u)) * P.eta := by positivity
        nlinarith
      linarith
    have hprod : (a (Fin.last S) * b (Fin.last S)).isFinite := by
      rw [Flt.mul_eq (ha _) (hb _), Flt.round_finite]
      refine lt_of_le_of_lt ?_ h
      have hm := P.fl_err_u ((a (Fin.last S)).val * (b (Fin.last S)).val)
      set t := (a (Fin.last S)).val * (b (Fin.last S)).val
      have k0 : |P.fl t| ≤ |t| + (P.u * |t| + P.eta) := by
        have : |t + (P.fl t - t)| ≤ |t| + (P.u * |t| + P.eta) := (abs_add_le _ _).trans (add_le_add le_rfl hm)
        rwa [add_sub_cancel] at this
      refine k0.trans ?_
      rw [e, pow_succ]
      push_cast
      set w := (1 + P.u) ^ S
      set A := absDot (fun i : Fin S => a i.castSucc) (fun i => b i.castSucc)
      have k1 : (1 + P.u) * |t| ≤ w * (1 + P.u) * (A + |t|) := by
        have h1 : 0 ≤ w * (1 + P.u) * A := by positivity
        have h2 : 1 * ((1 + P.u) * |t|) ≤ w * ((1 + P.u) * |t|) := mul_le_mul_of_nonneg_right hw (by positivity)
        nlinarith
      have k2 : P.eta ≤ (S + 1) * (w * (1 + P.u)) * P.eta := by
        have h1 : 0 ≤ (S : ℚ) * (w * (1 + P.u)) * P.eta := by positivity
        have h2 : 1 * P.eta ≤ (w * (1 + P.u)) * P.eta := by
          refine mul_le_mul_of_nonneg_right ?_ he.le
          nlinarith
        nlinarith
      linarith
    rw [dot_succ', Flt.add_eq h1 hprod, Flt.round_finite]
    have ih := dot_err _ _ h1
    have hm := P.fl_err_u ((a (Fin.last S)).val * (b (Fin.last S)).val)
    have hprod' := hprod
    rw [← Flt.mul_val hprod] at hm
    have hr := BinPar.fl_add_err_u (Flt.rep_val (dot (fun i : Fin S => a i.castSucc) (fun i => b i.castSucc))).1
      (Flt.rep_val (a (Fin.last S) * b (Fin.last S))).1
    refine lt_of_le_of_lt ?_ h
    have habs : |exactDot (fun i : Fin S => a i.castSucc) (fun i => b i.castSucc)| ≤
        absDot (fun i : Fin S => a i.castSucc) (fun i => b i.castSucc) := Finset.abs_sum_le_sum_abs _ _
    have fin_step : ∀ {r x t M : ℚ}, |r - (x + t)| ≤ M → |x| ≤ absDot (fun i : Fin S => a i.castSucc) (fun i => b i.castSucc) →
        |t| ≤ |(a (Fin.last S)).val * (b (Fin.last S)).val| →
        |r| ≤ absDot (fun i : Fin S => a i.castSucc) (fun i => b i.castSucc) + |(a (Fin.last S)).val * (b (Fin.last S)).val| + M := by
      intro r x t M h1 h2 h3
      have e : r = x + t + (r - (x + t)) := by ring
      rw [e]
      exact (abs_add_le _ _).trans (add_le_add ((abs_add_le _ _).trans (add_le_add h2 h3)) h1)
    rcases Nat.eq_zero_or_pos S with rfl | hS
    · have e1 : (dot (fun i : Fin 0 => a i.castSucc) (fun i => b i.castSucc)).val = 0 := rfl
      have e2 : exactDot (fun i : Fin 0 => a i.castSucc) (fun i => b i.castSucc) = 0 := rfl
      have e3 : absDot (fun i : Fin 0 => a i.castSucc) (fun i => b i.castSucc) = 0 := rfl
      rw [e1, zero_add, P.fl_rep (Flt.rep_val _).1]
      refine fin_step (x := 0) (t := (a (Fin.last 0)).val * (b (Fin.last 0)).val) ?_ (by simp [e3]) le_rfl
      simp only [e3, zero_add]
      exact dotErr_one hm
    · exact fin_step (dotErr_step S hS habs ih hm le_rfl hr) habs le_rfl

end vm
