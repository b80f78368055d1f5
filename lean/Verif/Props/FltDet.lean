import Verif.Lemmas.FltDet
import Verif.Props.FltMat
import Mathlib.Data.Fin.VecNotation

/-!
# C139: determinants and adjugates in IEEE arithmetic
-/

set_option linter.unusedSectionVars false
set_option linter.unusedSimpArgs false

namespace vm

open FltDet BinPar

variable {P : BinPar}

/-- The elements of the matrix are finite and at most `B`, the determinant cannot overflow, and the size of the matrix is small compared to the precision. -/
structure DetOk (P : BinPar) (n : ℕ) (B : ℚ) : Prop where
  one : 1 ≤ B
  size : 8 * ((n + 1 : ℚ) ^ 2) * 2 ^ (-(P.p : ℤ)) ≤ 1
  bound : 4 * (((n + 1).factorial : ℚ) * B ^ (n + 1)) < 2 ^ (P.p + P.qmax)

/-- The elements are finite and at most `B`. -/
def Within {R C : ℕ} (B : ℚ) (m : Mat (Flt P.fmt) R C) : Prop := ∀ c r, (m c r).isFinite ∧ |(m c r).val| ≤ B

/-- The error of the determinant of an N by N matrix is at most N² rounding units of N! Bᴺ, where `B` is a bound of the elements. -/
theorem C139_determinant {n : ℕ} {B : ℚ} (hB : DetOk P n B) (m : Mat (Flt P.fmt) (n + 1) (n + 1)) (h : Within B m) :
    (computeDeterminant n m).isFinite ∧ |(computeDeterminant n m).val - Matrix.det (fun r c => (m c r).val)| ≤
      (n + 1) ^ 2 * 2 ^ (-(P.p : ℤ)) * ((n + 1).factorial * B ^ (n + 1)) := by
  have := Dx.det hB.one n m h hB.size hB.bound
  refine ⟨this.fin, ?_⟩
  have e := this.err
  rw [computeDeterminant_eq] at e
  exact e

/-- The sign of the determinant is right unless the determinant is smaller than this bound. -/
theorem C139_sign {n : ℕ} {B : ℚ} (hB : DetOk P n B) (m : Mat (Flt P.fmt) (n + 1) (n + 1)) (h : Within B m)
    (hd : (n + 1) ^ 2 * 2 ^ (-(P.p : ℤ)) * ((n + 1).factorial * B ^ (n + 1)) < |Matrix.det (fun r c => (m c r).val)|) :
    Cmp.lt 0 (computeDeterminant n m) = decide (0 < Matrix.det (fun r c => (m c r).val)) ∧
    Cmp.lt (computeDeterminant n m) 0 = decide (Matrix.det (fun r c => (m c r).val) < 0) := by
  obtain ⟨hf, he⟩ := C139_determinant hB m h
  rw [Flt.lt_val Flt.zero_finite hf, Flt.lt_val hf Flt.zero_finite, Flt.zero_val]
  set d := Matrix.det (fun r c => (m c r).val)
  set x := (computeDeterminant n m).val
  have h1 := abs_le.1 (he.trans hd.le)
  have h2 := abs_lt.1 (he.trans_lt hd)
  rcases lt_trichotomy d 0 with h0 | h0 | h0
  · rw [abs_of_neg h0] at h2
    have : x < 0 := by linarith [h2.2]
    exact ⟨by rw [decide_eq_decide]; constructor <;> intro <;> linarith, by rw [decide_eq_decide]; constructor <;> intro <;> linarith⟩
  · rw [h0] at h2; simp at h2; exact absurd (h2.1.trans h2.2) (by simp)
  · rw [abs_of_pos h0] at h2
    have : 0 < x := by linarith [h2.1]
    exact ⟨by rw [decide_eq_decide]; constructor <;> intro <;> linarith, by rw [decide_eq_decide]; constructor <;> intro <;> linarith⟩

/-- The error of the elements of the adjugate, which are determinants of the minors. -/
theorem C139_adjugate {n : ℕ} {B : ℚ} (hB : DetOk P n B) (m : Mat (Flt P.fmt) (n + 2) (n + 2)) (h : Within B m) (c r : Fin (n + 2)) :
    (computeAdjugate m c r).isFinite ∧ |(computeAdjugate m c r).val - (Matrix.of fun r c => (m c r).val).adjugate r c| ≤
      (n + 1) ^ 2 * 2 ^ (-(P.p : ℤ)) * ((n + 1).factorial * B ^ (n + 1)) := by
  have e : (Matrix.of fun r c => (m c r).val).adjugate r c = computeAdjugate (fun c r => (m c r).val) c r := by
    have := computeAdjugate_eq (fun c r => (m c r).val)
    exact (congrFun (congrFun this r) c).symm
  rw [e]
  have := Dx.det hB.one n (extractMinor m c r) (fun c' r' => h _ _) hB.size hB.bound
  unfold computeAdjugate
  simp only
  split_ifs
  · rw [Flt.one_mul', one_mul]
    exact ⟨this.fin, this.err⟩
  · rw [Flt.neg_mul', Flt.one_mul', neg_one_mul]
    exact ⟨this.neg.fin, this.neg.err⟩

theorem fold_zero {N : ℕ} (t : Fin N → Flt P.fmt) (h : ∀ i, t i = 0) : Fin.foldl N (fun s i => s + t i) 0 = 0 := by
  induction N with
  | zero => rfl
  | succ N ih =>
    rw [Fin.foldl_succ_last, ih (fun i => t i.castSucc) (fun i => h _), h, Flt.zero_add']

theorem sgn_fin (r : ℕ) : (if r % 2 = 0 then (1 : Flt P.fmt) else -1).isFinite := by
  split_ifs
  · exact Flt.one_finite
  · exact Flt.neg_finite.2 Flt.one_finite

theorem DetOk.step {n : ℕ} {B : ℚ} (hB : DetOk P (n + 1) B) : DetOk P n B := by
  have h0 := hB.one
  refine ⟨h0, le_trans ?_ hB.size, lt_of_le_of_lt ?_ hB.bound⟩
  · push_cast
    have := two_zpow_pos (-(P.p : ℤ))
    have : (0 : ℚ) ≤ n := Nat.cast_nonneg n
    gcongr
    linarith
  · rw [Nat.factorial_succ (n + 1), pow_succ B (n + 1)]
    push_cast
    have h1 : (1 : ℚ) ≤ n + 1 + 1 := by have : (0 : ℚ) ≤ n := Nat.cast_nonneg n
                                        linarith
    have h2 : (0 : ℚ) ≤ ((n + 1).factorial : ℚ) * B ^ (n + 1) := by positivity
    have h3 : (1 : ℚ) ≤ (n + 1 + 1) * B := one_le_mul_of_one_le_of_one_le h1 h0
    nlinarith

theorem Flt.sub_self_fin {P : BinPar} {x : Flt P.fmt} (hx : x.isFinite) : x - x = 0 := by
  rw [Flt.sub_eq hx hx, sub_self]
  exact Flt.round_of_rep P.fmt.rep_zero

theorem two (i : Fin 2) : i = 0 ∨ i = 1 := by revert i; decide
theorem three' (i : Fin 3) : i = 0 ∨ i = 1 ∨ i = 2 := by revert i; decide

theorem det_zero_aux : ∀ (n : ℕ) {B : ℚ} (_ : DetOk P n B) (m : Mat (Flt P.fmt) (n + 1) (n + 1)), Within B m →
    ((∃ r, ∀ c, m c r = 0) ∨ ∃ c, ∀ r, m c r = 0) → computeDeterminant n m = 0
  | 0, _, _, m, _, hz => by
    rcases hz with ⟨r, hz⟩ | ⟨c, hz⟩
    · have := hz 0; rw [Fin.fin_one_eq_zero r] at this; exact this
    · have := hz 0; rw [Fin.fin_one_eq_zero c] at this; exact this
  | 1, _, _, m, h, hz => by
    have z0 : ∀ c r, 0 * m c r = 0 := fun c r => Flt.zero_mul_fin (h c r).1
    have z1 : ∀ c r, m c r * 0 = 0 := fun c r => Flt.mul_zero_fin (h c r).1
    have zz : (0 : Flt P.fmt) * 0 = 0 := Flt.zero_mul_fin Flt.zero_finite
    have hs : (0 : Flt P.fmt) - 0 = 0 := Flt.sub_self_fin Flt.zero_finite
    unfold computeDeterminant
    rcases hz with ⟨r, hz⟩ | ⟨c, hz⟩
    · rcases (two r) with rfl | rfl <;> simp only [hz, z0, z1, zz, hs]
    · rcases (two c) with rfl | rfl <;> simp only [hz, z0, z1, zz, hs]
  | 2, B, hB, m, h, hz => by
    have up := P.u_pos
    have hm2 : ∀ c r c' r', (m c r * m c' r').isFinite := fun c r c' r' => by
      have hb := hB.bound
      have h1 := hB.one
      norm_num [Nat.factorial] at hb
      have hBB : 1 ≤ B * B := one_le_mul_of_one_le_of_one_le h1 h1
      exact ((Dx.exact (h c r).1 (h c r).2).mul_exact (h c' r').1 (h c' r').2 hBB (by
        show _ < (2 : ℚ) ^ (P.p + P.qmax); nlinarith) (by rw [zero_mul]; norm_num)).fin
    have z0 : ∀ c r, 0 * m c r = 0 := fun c r => Flt.zero_mul_fin (h c r).1
    have z1 : ∀ c r, m c r * 0 = 0 := fun c r => Flt.mul_zero_fin (h c r).1
    have z2 : ∀ c r c' r', m c r * m c' r' * 0 = 0 := fun c r c' r' => Flt.mul_zero_fin (hm2 c r c' r')
    have zz : (0 : Flt P.fmt) * 0 = 0 := Flt.zero_mul_fin Flt.zero_finite
    have ha : (0 : Flt P.fmt) + 0 = 0 := Flt.zero_add' _
    have hs : (0 : Flt P.fmt) - 0 = 0 := Flt.sub_self_fin Flt.zero_finite
    unfold computeDeterminant
    rcases hz with ⟨r, hz⟩ | ⟨c, hz⟩
    · rcases (three' r) with rfl | rfl | rfl <;> simp only [hz, z0, z1, z2, zz, hs, ha]
    · rcases (three' c) with rfl | rfl | rfl <;> simp only [hz, z0, z1, z2, zz, hs, ha]
  | n + 3, _, hB, m, h, hz => by
    rw [computeDeterminant]
    refine fold_zero (fun r : Fin (n + 4) => (if r.val % 2 = 0 then (1 : Flt P.fmt) else -1) * m 0 r * computeDeterminant (n + 2) (extractMinor m r 0)) fun r => ?_
    have hd : (computeDeterminant (n + 2) (extractMinor m r 0)).isFinite := (C139_determinant hB.step _ (fun c' r' => h _ _)).1
    have hf : ((if r.val % 2 = 0 then (1 : Flt P.fmt) else -1) * m 0 r).isFinite := by
      split_ifs
      · rw [Flt.one_mul']; exact (h 0 r).1
      · rw [Flt.neg_mul', Flt.one_mul']; exact Flt.neg_finite.2 (h 0 r).1
    rcases hz with ⟨r0, hz⟩ | ⟨c0, hz⟩
    · by_cases hr : r0 = r
      · subst hr
        rw [hz, Flt.mul_zero_fin (sgn_fin _), Flt.zero_mul_fin hd]
      · obtain ⟨r1, hr1⟩ := Fin.exists_succAbove_eq hr
        rw [det_zero_aux (n + 2) hB.step (extractMinor m r 0) (fun c' r' => h _ _) (Or.inl ⟨r1, fun c => by
          show m _ (r.succAbove r1) = 0
          rw [hr1]; exact hz _⟩), Flt.mul_zero_fin hf]
    · by_cases hc : c0 = 0
      · subst hc
        rw [hz, Flt.mul_zero_fin (sgn_fin _), Flt.zero_mul_fin hd]
      · obtain ⟨c1, hc1⟩ := Fin.exists_succAbove_eq hc
        rw [det_zero_aux (n + 2) hB.step (extractMinor m r 0) (fun c' r' => h _ _) (Or.inr ⟨c1, fun r' => by
          show m ((0 : Fin (n + 4)).succAbove c1) _ = 0
          rw [hc1]; exact hz _⟩), Flt.mul_zero_fin hf]

/-- The determinant of a matrix with a row or column of zeros is exactly zero. -/
theorem C139_zero {n : ℕ} {B : ℚ} (hB : DetOk P n B) (m : Mat (Flt P.fmt) (n + 1) (n + 1)) (h : Within B m)
    (hz : (∃ r, ∀ c, m c r = 0) ∨ ∃ c, ∀ r, m c r = 0) : computeDeterminant n m = 0 := det_zero_aux n hB m h hz

theorem pow_fin (P : BinPar) : P.fmt.rep (2 ^ P.p) := by
  refine ⟨by exact_mod_cast P.rep_int (n := 2 ^ P.p) (by rw [abs_of_nonneg (by positivity)]), ?_⟩
  rw [abs_of_pos (by positivity), ← zpow_natCast]
  exact zpow_lt_zpow_right₀ (by norm_num) (by have := P.hmax; omega)

/-- Singular matrices need not have determinant zero, whatever the format: with two equal rows (1, 1, 1) and the third row (1, 1, 2ᵖ) the result is -2. And a
matrix that is not singular can have determinant zero: the rows are (1 + 2u, 1) and (1, 1 - 2u). -/
theorem C139_singular_fails (P : BinPar) :
    (∃ m : Mat (Flt P.fmt) 3 3, Within (2 ^ P.p) m ∧ (∀ c, m c 0 = m c 1) ∧ Matrix.det (fun r c => (m c r).val) = 0 ∧
      (computeDeterminant 2 m).isFinite ∧ (computeDeterminant 2 m).val = -2) ∧
    ∃ m : Mat (Flt P.fmt) 2 2, Within 2 m ∧ Matrix.det (fun r c => (m c r).val) < 0 ∧ computeDeterminant 1 m = 0 := by
  have hp := P.hp
  have up := P.u_pos
  have hp1 : (8 : ℚ) ≤ 2 ^ P.p := by
    calc (8 : ℚ) = 2 ^ 3 := by norm_num
      _ ≤ 2 ^ P.p := pow_le_pow_right₀ (by norm_num) hp
  constructor
  · set M : Flt P.fmt := Flt.fin (2 ^ P.p) (pow_fin P) with hM
    have hMf : M.isFinite := trivial
    have hMv : M.val = 2 ^ P.p := rfl
    have hb : (2 : ℚ) ^ P.p < P.bound := by
      have := (pow_fin P).2
      rwa [abs_of_pos (by positivity)] at this
    have a1 : M + 1 = M := by
      rw [Flt.add_eq hMf Flt.one_finite, hMv, Flt.one_val]
      have e : P.fl (2 ^ P.p + 1) = 2 ^ P.p := by
        have := P.fl_eval_even (q := 2 ^ P.p + 1) 1 (2 ^ (P.p - 1)) (by have := P.hmin; omega)
          (by
            rw [abs_of_pos (by positivity), show (1 : ℤ) + P.p - 1 = P.p by ring, zpow_natCast]; linarith)
          (by
            rw [abs_of_pos (by positivity), zpow_add₀ (by norm_num), zpow_natCast, zpow_one]; linarith)
          (by
            have e2 : (2 : ℚ) ^ P.p = 2 * 2 ^ (P.p - 1) := by
              rw [← pow_succ']; congr 1; omega
            push_cast
            rw [e2, add_div, mul_div_cancel_left₀ _ (by norm_num : (2 : ℚ) ≠ 0), add_sub_cancel_left]
            norm_num)
          (by
            obtain ⟨k, hk⟩ : ∃ k, P.p - 1 = k + 1 := ⟨P.p - 2, by omega⟩
            rw [hk, pow_succ]; omega)
        rw [this, zpow_one]
        push_cast
        rw [← pow_succ]; congr 1; omega
      rw [P.round_eq (by rw [e, abs_of_pos (by positivity)]; exact hb)]
      simp only [hM, e]
    have rp : P.fmt.rep (2 ^ P.p - 1) := by
      have h1 : (1 : ℤ) ≤ 2 ^ P.p := one_le_pow₀ (by norm_num)
      refine ⟨by exact_mod_cast P.rep_int (n := 2 ^ P.p - 1) (by rw [abs_of_nonneg (by linarith)]; linarith), ?_⟩
      rw [abs_of_pos (by linarith)]
      linarith
    have a2 : M - 1 = Flt.fin (2 ^ P.p - 1) rp := by
      rw [Flt.sub_eq hMf Flt.one_finite, hMv, Flt.one_val]
      exact Flt.round_of_rep rp
    have r1 : P.fmt.rep (-1) := P.fmt.rep_neg ⟨P.rep_one, by rw [abs_one]; exact P.one_lt_bound⟩
    have a3 : (Flt.fin (2 ^ P.p - 1) rp : Flt P.fmt) - M = Flt.fin (-1) r1 := by
      rw [Flt.sub_eq (show (Flt.fin (2 ^ P.p - 1) rp : Flt P.fmt).isFinite from trivial) hMf, hMv]
      show Flt.round (2 ^ P.p - 1 - 2 ^ P.p) = _
      rw [show (2 : ℚ) ^ P.p - 1 - 2 ^ P.p = -1 by ring]
      exact Flt.round_of_rep r1
    have r2 : P.fmt.rep (-2) := by
      refine P.fmt.rep_neg ⟨by exact_mod_cast P.rep_int (n := 2) (by
        have : (8 : ℤ) ≤ 2 ^ P.p := by exact_mod_cast hp1
        norm_num; linarith), ?_⟩
      norm_num
      linarith
    have a4 : (Flt.fin (-1) r1 : Flt P.fmt) - 1 = Flt.fin (-2) r2 := by
      rw [Flt.sub_eq (show (Flt.fin (-1) r1 : Flt P.fmt).isFinite from trivial) Flt.one_finite, Flt.one_val]
      show Flt.round (-1 - 1) = _
      rw [show (-1 - 1 : ℚ) = -2 by norm_num]
      exact Flt.round_of_rep r2
    let m : Mat (Flt P.fmt) 3 3 := fun c r => if c = 2 ∧ r = 2 then M else 1
    have hdet : computeDeterminant 2 m = Flt.fin (-2) r2 := by
      show 1 * 1 * M + 1 * 1 * 1 + 1 * 1 * 1 - 1 * 1 * 1 - 1 * 1 * M - 1 * 1 * 1 = _
      simp only [Flt.one_mul']
      rw [a1, a1, a2, a3, a4]
    refine ⟨m, fun c r => ?_, fun c => ?_, ?_, by rw [hdet]; trivial, by rw [hdet]; rfl⟩
    · show (if c = 2 ∧ r = 2 then M else (1 : Flt P.fmt)).isFinite ∧ |(if c = 2 ∧ r = 2 then M else (1 : Flt P.fmt)).val| ≤ 2 ^ P.p
      split_ifs
      · exact ⟨hMf, by rw [hMv, abs_of_pos (by positivity)]⟩
      · exact ⟨Flt.one_finite, by rw [Flt.one_val, abs_one]; linarith⟩
    · show (if c = 2 ∧ (0 : Fin 3) = 2 then M else (1 : Flt P.fmt)) = if c = 2 ∧ (1 : Fin 3) = 2 then M else 1
      simp
    · refine Matrix.det_zero_of_row_eq (i := 0) (j := 1) (by decide) ?_
      funext c
      show (if c = 2 ∧ (0 : Fin 3) = 2 then M else (1 : Flt P.fmt)).val = (if c = 2 ∧ (1 : Fin 3) = 2 then M else (1 : Flt P.fmt)).val
      simp
  · have hu : P.u * 2 ^ P.p = 1 := by
      unfold BinPar.u
      rw [← zpow_natCast, ← zpow_add₀ (by norm_num)]; simp
    have hu8 : P.u ≤ 1 / 8 := by nlinarith
    have hrep : ∀ s : ℤ, |s| ≤ 1 → P.fmt.rep (1 + s * (2 * P.u)) := by
      intro s hs
      have hs' := abs_le.1 hs
      have hsq : |(s : ℚ)| ≤ 1 := by exact_mod_cast hs
      have hsq' := abs_le.1 hsq
      have hz : (8 : ℤ) ≤ 2 ^ P.p := by exact_mod_cast hp1
      refine ⟨P.rep_multiple (e := 1 - P.p) (m := 2 ^ (P.p - 1) + s) (by have := P.hmin; omega) ?_ ?_, ?_⟩
      · rw [show (1 - (P.p : ℤ) + P.p) = 1 by ring, zpow_one]
        exact abs_le.2 ⟨by nlinarith, by nlinarith⟩
      · push_cast
        rw [zpow_sub₀ (by norm_num), zpow_one, zpow_natCast]
        have e2 : (2 : ℚ) ^ P.p = 2 * 2 ^ (P.p - 1) := by
          rw [← pow_succ']; congr 1; omega
        have h0 : (2 : ℚ) ^ P.p ≠ 0 := by positivity
        have hu' : P.u = 1 / 2 ^ P.p := by field_simp; linarith
        rw [hu']
        field_simp
        linarith
      · have hbd : (2 : ℚ) < P.bound := by
          unfold BinPar.bound
          calc (2 : ℚ) = 2 ^ (1 : ℤ) := by norm_num
            _ < _ := zpow_lt_zpow_right₀ (by norm_num) (by have := P.hmax; omega)
        exact abs_lt.2 ⟨by nlinarith, by nlinarith⟩
    set A : Flt P.fmt := Flt.fin _ (hrep 1 (by norm_num)) with hA
    set D : Flt P.fmt := Flt.fin _ (hrep (-1) (by norm_num)) with hD
    have hAv : A.val = 1 + 2 * P.u := by show 1 + ((1 : ℤ) : ℚ) * (2 * P.u) = _; push_cast; ring
    have hDv : D.val = 1 - 2 * P.u := by show 1 + ((-1 : ℤ) : ℚ) * (2 * P.u) = _; push_cast; ring
    have e : P.fl (1 - 4 * P.u * P.u) = 1 := by
      have h4 : 4 * P.u * P.u ≤ 1 / 2 * P.u := by nlinarith
      have := P.fl_eval_even (q := 1 - 4 * P.u * P.u) (-P.p) (2 ^ P.p) (by have := P.hmin; omega)
        (by
          rw [abs_of_pos (by linarith), show -(P.p : ℤ) + P.p - 1 = -1 by ring]
          norm_num
          linarith)
        (by
          rw [abs_of_pos (by linarith), show -(P.p : ℤ) + P.p = 0 by ring, zpow_zero]
          nlinarith)
        (by
          rw [zpow_neg, div_inv_eq_mul, zpow_natCast]
          push_cast
          rw [show (1 - 4 * P.u * P.u) * 2 ^ P.p - 2 ^ P.p = -(4 * P.u * (P.u * 2 ^ P.p)) by ring, hu, abs_neg, abs_of_pos (by linarith)]
          linarith)
        (by
          obtain ⟨k, hk⟩ : ∃ k, P.p = k + 1 := ⟨P.p - 1, by omega⟩
          rw [hk, pow_succ]; omega)
      rw [this]
      push_cast
      rw [← zpow_natCast, ← zpow_add₀ (by norm_num)]; simp
    have hmul : A * D = 1 := by
      rw [Flt.mul_eq (show A.isFinite from trivial) (show D.isFinite from trivial), hAv, hDv, show (1 + 2 * P.u) * (1 - 2 * P.u) = 1 - 4 * P.u * P.u by ring,
        P.round_eq (by rw [e, abs_one]; exact P.one_lt_bound)]
      show Flt.fin _ _ = Flt.fin _ _
      simp only [e]
    refine ⟨fun c r => if c = 0 then (if r = 0 then A else 1) else if r = 0 then 1 else D, fun c r => ?_, ?_, ?_⟩
    · have b1 : |A.val| ≤ 2 := by rw [hAv]; exact abs_le.2 ⟨by linarith, by linarith⟩
      have b2 : |D.val| ≤ 2 := by rw [hDv]; exact abs_le.2 ⟨by linarith, by linarith⟩
      have b3 : |(1 : Flt P.fmt).val| ≤ 2 := by rw [Flt.one_val]; norm_num
      simp only
      split_ifs
      · exact ⟨trivial, b1⟩
      · exact ⟨Flt.one_finite, b3⟩
      · exact ⟨Flt.one_finite, b3⟩
      · exact ⟨trivial, b2⟩
    · refine lt_of_eq_of_lt (Matrix.det_fin_two _) ?_
      show A.val * D.val - (1 : Flt P.fmt).val * (1 : Flt P.fmt).val < 0
      rw [hAv, hDv, Flt.one_val]
      nlinarith
    · show A * D - 1 * 1 = 0
      rw [hmul, Flt.one_mul']
      exact Flt.sub_self_fin Flt.one_finite

/-! ### The hypotheses are met -/

example : DetOk binary64 3 1000 := by
  refine ⟨by norm_num, ?_, ?_⟩
  · show 8 * (((3 : ℕ) : ℚ) + 1) ^ 2 * 2 ^ (-53 : ℤ) ≤ 1
    norm_num
  · refine lt_of_lt_of_le (?_ : _ < (2 : ℚ) ^ (100 : ℤ)) (zpow_le_zpow_right₀ (by norm_num) (by decide))
    norm_num [Nat.factorial]

example : DetOk binary32 2 100000 := by
  refine ⟨by norm_num, ?_, ?_⟩
  · show 8 * (((2 : ℕ) : ℚ) + 1) ^ 2 * 2 ^ (-24 : ℤ) ≤ 1
    norm_num
  · refine lt_of_lt_of_le (?_ : _ < (2 : ℚ) ^ (100 : ℤ)) (zpow_le_zpow_right₀ (by norm_num) (by decide))
    norm_num [Nat.factorial]

/-- The determinant of the identity is 1, which is far from the bound. -/
example : Within 1000 (matId 4 4 : Mat (Flt binary64.fmt) 4 4) ∧
    ((3 : ℕ) + 1 : ℚ) ^ 2 * 2 ^ (-(binary64.p : ℤ)) * ((3 + 1).factorial * 1000 ^ (3 + 1)) <
      |Matrix.det (fun r c => ((matId 4 4 : Mat (Flt binary64.fmt) 4 4) c r).val)| := by
  have hv : ∀ c r, ((matId 4 4 : Mat (Flt binary64.fmt) 4 4) c r).isFinite ∧ ((matId 4 4 : Mat (Flt binary64.fmt) 4 4) c r).val = (1 : Matrix (Fin 4) (Fin 4) ℚ) r c := by
    intro c r
    unfold matId
    by_cases h : c = r
    · subst h; simp [Flt.one_finite, Flt.one_val]
    · have h' : c.val ≠ r.val := fun e => h (Fin.ext e)
      simp [h', Ne.symm h, Flt.zero_finite, Flt.zero_val]
  refine ⟨fun c r => ⟨(hv c r).1, ?_⟩, ?_⟩
  · rw [(hv c r).2, Matrix.one_apply]
    split_ifs <;> norm_num
  · have e : (fun r c => ((matId 4 4 : Mat (Flt binary64.fmt) 4 4) c r).val) = (1 : Matrix (Fin 4) (Fin 4) ℚ) := by
      funext r c; exact (hv c r).2
    rw [e, Matrix.det_one]
    show _ * 2 ^ (-53 : ℤ) * _ < _
    norm_num [Nat.factorial]

end vm
