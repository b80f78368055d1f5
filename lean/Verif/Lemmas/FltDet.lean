import Verif.Lemmas.FltPolygon
import Verif.Lemmas.FltGrid
import Verif.Lemmas.FltAp
import Verif.Lemmas.Mat
import Mathlib.Algebra.Order.BigOperators.Group.Finset

/-!
# Determinants in IEEE arithmetic: running error

`Dx T k x y`: the float `x` is finite, differs from the rational number `y` by at most `k` rounding units of `T`, and `y` is at most `T`.
-/

set_option linter.unusedSectionVars false
set_option linter.unusedSimpArgs false

namespace vm
namespace FltDet

variable {P : BinPar}

structure Dx (T k : ℚ) (x : Flt P.fmt) (y : ℚ) : Prop where
  fin : x.isFinite
  err : |x.val - y| ≤ k * P.u * T
  le : |y| ≤ T

variable {T T' k k' : ℚ} {x x' : Flt P.fmt} {y y' : ℚ}

theorem eta_le_u (P : BinPar) : P.eta ≤ P.u / 16 := by
  have h1 : P.eta ≤ P.u * P.u / 2 := by
    unfold BinPar.eta BinPar.u
    rw [← zpow_add₀ (by norm_num), show (2 : ℚ) ^ (-(P.p : ℤ) + -(P.p : ℤ)) / 2 = 2 ^ (-(P.p : ℤ) + -(P.p : ℤ) - 1) from by
      rw [zpow_sub₀ (by norm_num), zpow_one]]
    exact zpow_le_zpow_right₀ (by norm_num) (by have := P.hmin; omega)
  have h2 : P.u ≤ 1 / 8 := by
    unfold BinPar.u
    calc (2 : ℚ) ^ (-(P.p : ℤ)) ≤ 2 ^ (-3 : ℤ) := zpow_le_zpow_right₀ (by norm_num) (by have := P.hp; omega)
      _ = 1 / 8 := by norm_num
  have := P.u_pos
  nlinarith

namespace Dx

theorem mono (h : Dx T k x y) {k1 T1 : ℚ} (hk0 : 0 ≤ k) (hk : k ≤ k1) (hT : T ≤ T1) : Dx T1 k1 x y := by
  have h0 : 0 ≤ T := (abs_nonneg y).trans h.le
  have := P.u_pos
  exact ⟨h.fin, h.err.trans (mul_le_mul (mul_le_mul_of_nonneg_right hk this.le) hT h0 (mul_nonneg (hk0.trans hk) this.le)), h.le.trans hT⟩

theorem exact (hf : x.isFinite) (h : |x.val| ≤ T) : Dx T 0 x x.val := ⟨hf, by simp, h⟩

theorem neg (h : Dx T k x y) : Dx T k (-x) (-y) := by
  refine ⟨Flt.neg_finite.2 h.fin, ?_, by rw [abs_neg]; exact h.le⟩
  rw [Flt.neg_val, show -x.val - -y = -(x.val - y) by ring, abs_neg]
  exact h.err

/-- A rounded result. -/
theorem round {q : ℚ} (hT : 1 ≤ T) (hb : 4 * T < P.bound) (hku : k * P.u ≤ 1 / 8) (hy : |y| ≤ T) (hq : |q - y| ≤ k * P.u * T)
    (hf : x = Flt.round q) : Dx T (k + 6 / 5) x y := by
  have hu := P.u_pos
  have he := eta_le_u P
  have h1 : k * P.u * T ≤ 1 / 8 * T := mul_le_mul_of_nonneg_right hku (by linarith)
  have h2 : |q| ≤ 9 / 8 * T := by
    have := abs_add_le (q - y) y
    rw [sub_add_cancel] at this
    linarith
  have hfin : |P.fl q| < P.bound := fl_lt_bound (by linarith)
  have f : (Flt.round q : Flt P.fmt).isFinite := Flt.round_finite.2 hfin
  have v : (Flt.round q : Flt P.fmt).val = P.fl q := Flt.round_val f
  have e := P.fl_err_u q
  subst hf
  refine ⟨f, ?_, hy⟩
  rw [v]
  have h3 := abs_add_le (P.fl q - q) (q - y)
  rw [sub_add_sub_cancel] at h3
  have h4 : P.u * |q| ≤ P.u * (9 / 8 * T) := mul_le_mul_of_nonneg_left h2 hu.le
  have h5 : P.u ≤ P.u * T := le_mul_of_one_le_right hu.le hT
  calc |P.fl q - y| ≤ P.u * (9 / 8 * T) + P.eta + k * P.u * T := by linarith
    _ ≤ (k + 6 / 5) * P.u * T := by linarith

theorem add (h : Dx T k x y) (h' : Dx T' k x' y') (hT : 1 ≤ T + T') (hb : 4 * (T + T') < P.bound) (hku : k * P.u ≤ 1 / 8) :
    Dx (T + T') (k + 6 / 5) (x + x') (y + y') := by
  refine round hT hb hku ((abs_add_le _ _).trans (add_le_add h.le h'.le)) (q := x.val + x'.val) ?_ (Flt.add_eq h.fin h'.fin)
  rw [show x.val + x'.val - (y + y') = (x.val - y) + (x'.val - y') by ring]
  refine (abs_add_le _ _).trans ?_
  linarith [h.err, h'.err]

theorem sub (h : Dx T k x y) (h' : Dx T' k x' y') (hT : 1 ≤ T + T') (hb : 4 * (T + T') < P.bound) (hku : k * P.u ≤ 1 / 8) :
    Dx (T + T') (k + 6 / 5) (x - x') (y - y') := by
  rw [sub_eq_add_neg]
  exact h.add h'.neg hT hb hku

/-- The product with a number that is exact. -/
theorem mul_exact (h : Dx T k x y) (hf : x'.isFinite) (h' : |x'.val| ≤ T') (hT : 1 ≤ T * T') (hb : 4 * (T * T') < P.bound)
    (hku : k * P.u ≤ 1 / 8) : Dx (T * T') (k + 6 / 5) (x * x') (y * x'.val) := by
  have h0 : 0 ≤ T := (abs_nonneg y).trans h.le
  refine round hT hb hku (by rw [abs_mul]; exact mul_le_mul h.le h' (abs_nonneg _) h0) (q := x.val * x'.val) ?_ (Flt.mul_eq h.fin hf)
  rw [← sub_mul, abs_mul]
  calc |x.val - y| * |x'.val| ≤ k * P.u * T * T' := mul_le_mul h.err h' (abs_nonneg _) ((abs_nonneg _).trans h.err)
    _ = k * P.u * (T * T') := by ring

theorem exact_mul (h : Dx T k x y) (hf : x'.isFinite) (h' : |x'.val| ≤ T') (hT : 1 ≤ T * T') (hb : 4 * (T * T') < P.bound)
    (hku : k * P.u ≤ 1 / 8) : Dx (T * T') (k + 6 / 5) (x' * x) (x'.val * y) := by
  rw [Flt.mul_comm', mul_comm x'.val]
  exact h.mul_exact hf h' hT hb hku

theorem sum (hT : 1 ≤ T) (hk0 : 0 ≤ k) : ∀ {N : ℕ} (t : Fin N → Flt P.fmt) (z : Fin N → ℚ), (∀ i, Dx T k (t i) (z i)) → 4 * (N * T) < P.bound →
    (k + 6 / 5 * N) * P.u ≤ 1 / 8 → Dx (N * T) (k + 6 / 5 * N) (Fin.foldl N (fun s i => s + t i) 0) (∑ i, z i)
  | 0, t, z, _, _, _ => ⟨Flt.zero_finite, by simp [Flt.zero_val], by simp⟩
  | N + 1, t, z, h, hb, hku => by
    have hu := P.u_pos
    push_cast at hb hku ⊢
    have hN : (0 : ℚ) ≤ N := Nat.cast_nonneg N
    have ih := sum hT hk0 (fun i => t i.castSucc) (fun i => z i.castSucc) (fun i => h _) (by linarith) (by nlinarith)
    rw [Fin.foldl_succ_last, Fin.sum_univ_castSucc]
    have hl : Dx T (k + 6 / 5 * N) (t (Fin.last N)) (z (Fin.last N)) := (h _).mono hk0 (by linarith) le_rfl
    have hNT : 0 ≤ N * T := mul_nonneg hN (by linarith)
    have := ih.add hl (by linarith) (by linarith) (by nlinarith)
    rw [show (N + 1 : ℚ) * T = N * T + T by ring, show k + 6 / 5 * (N + 1 : ℚ) = k + 6 / 5 * N + 6 / 5 by ring]
    exact this

/-- The error of the determinant. -/
theorem det {B : ℚ} (hB : 1 ≤ B) : ∀ (n : ℕ) (m : Mat (Flt P.fmt) (n + 1) (n + 1)), (∀ c r, (m c r).isFinite ∧ |(m c r).val| ≤ B) →
    8 * ((n + 1 : ℚ) ^ 2) * P.u ≤ 1 → 4 * (((n + 1).factorial : ℚ) * B ^ (n + 1)) < P.bound →
    Dx (((n + 1).factorial : ℚ) * B ^ (n + 1)) ((n + 1 : ℚ) ^ 2) (computeDeterminant n m) (computeDeterminant n fun c r => (m c r).val)
  | 0, m, h, _, _ => by
    have := Dx.exact (h 0 0).1 (h 0 0).2
    refine (this.mono le_rfl (by norm_num) (le_of_eq ?_))
    simp
  | 1, m, h, hu, hb => by
    have up := P.u_pos
    norm_num [Nat.factorial] at hu hb
    have hBB : 1 ≤ B * B := by nlinarith
    have p : ∀ c r c' r', Dx (B * B) (0 + 6 / 5) (m c r * m c' r') ((m c r).val * (m c' r').val) := fun c r c' r' =>
      (Dx.exact (h c r).1 (h c r).2).mul_exact (h c' r').1 (h c' r').2 hBB (by nlinarith) (by rw [zero_mul]; norm_num)
    refine ((p 0 0 1 1).sub (p 1 0 0 1) (by linarith) (by nlinarith) (by linarith)).mono (by norm_num) (by norm_num) (le_of_eq ?_)
    norm_num [Nat.factorial]; ring
  | 2, m, h, hu, hb => by
    have up := P.u_pos
    norm_num [Nat.factorial] at hu hb
    have hBB : 1 ≤ B * B := by nlinarith
    have hBBB : 1 ≤ B * B * B := by nlinarith
    have hle : B * B ≤ B * B * B := by nlinarith
    have e3 : B ^ 3 = B * B * B := by ring
    rw [e3] at hb
    have p : ∀ c r c' r' c'' r'', Dx (B * B * B) (0 + 6 / 5 + 6 / 5) (m c r * m c' r' * m c'' r'') ((m c r).val * (m c' r').val * (m c'' r'').val) :=
      fun c r c' r' c'' r'' => ((Dx.exact (h c r).1 (h c r).2).mul_exact (h c' r').1 (h c' r').2 hBB (by linarith) (by rw [zero_mul]; norm_num)).mul_exact
        (h c'' r'').1 (h c'' r'').2 hBBB (by linarith) (by linarith)
    have q : ∀ (k : ℚ) c r c' r' c'' r'', 12 / 5 ≤ k → Dx (B * B * B) k (m c r * m c' r' * m c'' r'') ((m c r).val * (m c' r').val * (m c'' r'').val) :=
      fun k c r c' r' c'' r'' hk => (p c r c' r' c'' r'').mono (by norm_num) (by linarith) le_rfl
    have s1 := (q (12 / 5) 0 0 1 1 2 2 le_rfl).add (q (12 / 5) 1 0 2 1 0 2 le_rfl) (by linarith) (by linarith) (by linarith)
    have s2 := s1.add (q _ 2 0 0 1 1 2 (by norm_num)) (by linarith) (by linarith) (by linarith)
    have s3 := s2.sub (q _ 2 0 1 1 0 2 (by norm_num)) (by linarith) (by linarith) (by linarith)
    have s4 := s3.sub (q _ 1 0 0 1 2 2 (by norm_num)) (by linarith) (by linarith) (by linarith)
    have s5 := s4.sub (q _ 0 0 2 1 1 2 (by norm_num)) (by linarith) (by linarith) (by linarith)
    refine s5.mono (by norm_num) (by norm_num) (le_of_eq ?_)
    norm_num [Nat.factorial]; ring
  | n + 3, m, h, hu, hb => by
    have up := P.u_pos
    have hn : (0 : ℚ) ≤ n := Nat.cast_nonneg n
    push_cast at hu
    set D : ℚ := ((n + 3).factorial : ℚ) * B ^ (n + 3) with hD
    have hD1 : 1 ≤ D := by
      have h1 : (1 : ℚ) ≤ (n + 3).factorial := by exact_mod_cast Nat.factorial_pos _
      exact one_le_mul_of_one_le_of_one_le h1 (one_le_pow₀ hB)
    have eD : (((n + 3 + 1).factorial : ℕ) : ℚ) * B ^ (n + 3 + 1) = (n + 4 : ℕ) * (B * D) := by
      rw [hD, Nat.factorial_succ (n + 3), pow_succ]; push_cast; ring
    rw [eD] at hb ⊢
    push_cast at hb
    have hBD : D ≤ B * D := le_mul_of_one_le_left (by linarith) hB
    have hBD1 : 1 ≤ B * D := hD1.trans hBD
    have hBDn : B * D ≤ (n + 4) * (B * D) := le_mul_of_one_le_left (by linarith) (by linarith)
    have ku : ∀ k : ℚ, k ≤ (n + 3 + 1) ^ 2 → k * P.u ≤ 1 / 8 := fun k hk => by
      have := mul_le_mul_of_nonneg_right hk up.le
      linarith
    have hd : ∀ r, Dx D ((n + 3 : ℚ) ^ 2) (computeDeterminant (n + 2) (extractMinor m r 0))
        (computeDeterminant (n + 2) (extractMinor (fun c r => (m c r).val) r 0)) := by
      intro r
      have := det hB (n + 2) (extractMinor m r 0) (fun c r' => h _ _) (by push_cast; linarith [ku ((n + 2 + 1) ^ 2) (by nlinarith)])
        (by rw [← hD]; linarith)
      push_cast at this
      rw [show (n + 2 + 1 : ℚ) = n + 3 by ring] at this
      exact this
    have hsgn : ∀ r : Fin (n + 4), ((if r.val % 2 = 0 then (1 : Flt P.fmt) else -1) * m 0 r).isFinite ∧
        ((if r.val % 2 = 0 then (1 : Flt P.fmt) else -1) * m 0 r).val = (if r.val % 2 = 0 then 1 else -1) * (m 0 r).val := by
      intro r
      split_ifs
      · rw [Flt.one_mul']; exact ⟨(h 0 r).1, by rw [one_mul]⟩
      · rw [Flt.neg_mul', Flt.one_mul']
        exact ⟨Flt.neg_finite.2 (h 0 r).1, by rw [Flt.neg_val]; ring⟩
    have ht : ∀ r : Fin (n + 4), Dx (B * D) ((n + 3 : ℚ) ^ 2 + 6 / 5)
        ((if r.val % 2 = 0 then (1 : Flt P.fmt) else -1) * m 0 r * computeDeterminant (n + 2) (extractMinor m r 0))
        ((if r.val % 2 = 0 then 1 else -1) * (m 0 r).val * computeDeterminant (n + 2) (extractMinor (fun c r => (m c r).val) r 0)) := by
      intro r
      have hs : |((if r.val % 2 = 0 then (1 : Flt P.fmt) else -1) * m 0 r).val| ≤ B := by
        rw [(hsgn r).2]
        split_ifs
        · rw [one_mul]; exact (h 0 r).2
        · rw [neg_one_mul, abs_neg]; exact (h 0 r).2
      have := (hd r).exact_mul (hsgn r).1 hs (by linarith) (by linarith) (ku _ (by nlinarith))
      rw [(hsgn r).2, mul_comm D] at this
      exact this
    have hsum := sum hBD1 (by positivity) _ _ ht (by push_cast; linarith) (ku _ (by push_cast; nlinarith))
    have e : (computeDeterminant (n + 3) fun c r => (m c r).val) = ∑ r : Fin (n + 4), (if r.val % 2 = 0 then 1 else -1) * (m 0 r).val *
        computeDeterminant (n + 2) (extractMinor (fun c r => (m c r).val) r 0) := by
      rw [computeDeterminant, foldl_add_eq_sum, zero_add]
    rw [e]
    refine hsum.mono (by positivity) ?_ le_rfl
    push_cast
    nlinarith

end Dx
end FltDet
end vm
