import Verif.Model.IntC
import Verif.Lemmas.Mat
import Mathlib.LinearAlgebra.Matrix.AbsoluteValue

/-! Lemmas about signed integers as component type. -/

set_option linter.unusedSectionVars false
set_option linter.unusedSimpArgs false

namespace vm
namespace SInt
variable {w : ℕ}

theorem toInt_of (z : ℤ) : (of z : SInt w).toInt = if InRange w z then some z else none := by
  unfold of
  split_ifs <;> rfl

theorem eq_val {x : SInt w} {a : ℤ} (h : x.toInt = some a) : ∃ hr, x = val a hr := by
  cases x with
  | ub => exact (nomatch h)
  | val z hz => cases h; exact ⟨hz, rfl⟩

theorem inRange {x : SInt w} {a : ℤ} (h : x.toInt = some a) : InRange w a := (eq_val h).1

theorem add_int {x y : SInt w} {a b : ℤ} (hx : x.toInt = some a) (hy : y.toInt = some b) :
    (x + y).toInt = if InRange w (a + b) then some (a + b) else none := by
  obtain ⟨_, rfl⟩ := eq_val hx
  obtain ⟨_, rfl⟩ := eq_val hy
  exact toInt_of _

theorem sub_int {x y : SInt w} {a b : ℤ} (hx : x.toInt = some a) (hy : y.toInt = some b) :
    (x - y).toInt = if InRange w (a - b) then some (a - b) else none := by
  obtain ⟨_, rfl⟩ := eq_val hx
  obtain ⟨_, rfl⟩ := eq_val hy
  exact toInt_of _

theorem mul_int {x y : SInt w} {a b : ℤ} (hx : x.toInt = some a) (hy : y.toInt = some b) :
    (x * y).toInt = if InRange w (a * b) then some (a * b) else none := by
  obtain ⟨_, rfl⟩ := eq_val hx
  obtain ⟨_, rfl⟩ := eq_val hy
  exact toInt_of _

theorem neg_int {x : SInt w} {a : ℤ} (hx : x.toInt = some a) : (-x).toInt = if InRange w (-a) then some (-a) else none := by
  obtain ⟨_, rfl⟩ := eq_val hx
  exact toInt_of _

theorem div_int {x y : SInt w} {a b : ℤ} (hx : x.toInt = some a) (hy : y.toInt = some b) (hb : b ≠ 0) :
    (x / y).toInt = if InRange w (a.tdiv b) then some (a.tdiv b) else none := by
  obtain ⟨_, rfl⟩ := eq_val hx
  obtain ⟨_, rfl⟩ := eq_val hy
  show (div (val a _) (val b _)).toInt = _
  unfold div
  simp only [if_neg hb, toInt_of]

theorem lt_int {x y : SInt w} {a b : ℤ} (hx : x.toInt = some a) (hy : y.toInt = some b) : Cmp.lt x y = decide (a < b) := by
  obtain ⟨_, rfl⟩ := eq_val hx
  obtain ⟨_, rfl⟩ := eq_val hy
  rfl

theorem add_ub_left {x y : SInt w} (h : x.toInt = none) : (x + y).toInt = none := by
  cases x with
  | ub => rfl
  | val z hz => exact (nomatch h)

theorem add_ub_right {x y : SInt w} (h : y.toInt = none) : (x + y).toInt = none := by
  cases y with
  | ub => cases x <;> rfl
  | val z hz => exact (nomatch h)

theorem inRange_of_lt {z : ℤ} (h : |z| < 2 ^ (w - 1)) : InRange w z := by
  rw [abs_lt] at h
  exact ⟨h.1.le, h.2⟩

/-- `x` has the value `z`, whose magnitude is at most `B`. -/
def Bd (x : SInt w) (z B : ℤ) : Prop := x.toInt = some z ∧ |z| ≤ B

theorem Bd.add {x y : SInt w} {a b A B : ℤ} (hx : Bd x a A) (hy : Bd y b B) (h : A + B < 2 ^ (w - 1)) : Bd (x + y) (a + b) (A + B) := by
  have hb : |a + b| ≤ A + B := (abs_add_le _ _).trans (add_le_add hx.2 hy.2)
  exact ⟨by rw [add_int hx.1 hy.1, if_pos (inRange_of_lt (lt_of_le_of_lt hb h))], hb⟩

theorem Bd.sub {x y : SInt w} {a b A B : ℤ} (hx : Bd x a A) (hy : Bd y b B) (h : A + B < 2 ^ (w - 1)) : Bd (x - y) (a - b) (A + B) := by
  have hb : |a - b| ≤ A + B := (abs_sub _ _).trans (add_le_add hx.2 hy.2)
  exact ⟨by rw [sub_int hx.1 hy.1, if_pos (inRange_of_lt (lt_of_le_of_lt hb h))], hb⟩

theorem Bd.mul {x y : SInt w} {a b A B : ℤ} (hx : Bd x a A) (hy : Bd y b B) (h : A * B < 2 ^ (w - 1)) : Bd (x * y) (a * b) (A * B) := by
  have hb : |a * b| ≤ A * B := by
    rw [abs_mul]
    exact mul_le_mul hx.2 hy.2 (abs_nonneg _) ((abs_nonneg _).trans hx.2)
  exact ⟨by rw [mul_int hx.1 hy.1, if_pos (inRange_of_lt (lt_of_le_of_lt hb h))], hb⟩

theorem Bd.neg {x : SInt w} {a A : ℤ} (hx : Bd x a A) (h : A < 2 ^ (w - 1)) : Bd (-x) (-a) A := by
  have hb : |-a| ≤ A := by rw [abs_neg]; exact hx.2
  exact ⟨by rw [neg_int hx.1, if_pos (inRange_of_lt (lt_of_le_of_lt hb h))], hb⟩

theorem Bd.mono {x : SInt w} {a A B : ℤ} (hx : Bd x a A) (h : A ≤ B) : Bd x a B := ⟨hx.1, hx.2.trans h⟩

theorem two_pow_pos : (0 : ℤ) < 2 ^ (w - 1) := by positivity

theorem bd_zero : Bd (0 : SInt w) 0 0 := by
  refine ⟨?_, by simp⟩
  show (of 0 : SInt w).toInt = _
  rw [toInt_of, if_pos (inRange_of_lt (by rw [abs_zero]; exact two_pow_pos))]

theorem zero_int : (0 : SInt w).toInt = some 0 := bd_zero.1

theorem bd_one (h : 2 ≤ w) : Bd (1 : SInt w) 1 1 := by
  refine ⟨?_, by simp⟩
  show (of 1 : SInt w).toInt = _
  rw [toInt_of, if_pos (inRange_of_lt (by
    rw [abs_one]
    exact one_lt_pow₀ (by norm_num) (by omega)))]

theorem two_int (h : 3 ≤ w) : (2 : SInt w).toInt = some 2 := by
  show (of 2 : SInt w).toInt = _
  rw [toInt_of, if_pos (inRange_of_lt (by
    calc |(2 : ℤ)| < 2 ^ 2 := by norm_num
      _ ≤ 2 ^ (w - 1) := pow_le_pow_right₀ (by norm_num) (by omega)))]

/-- A loop that adds up terms. -/
theorem sum_int : ∀ {n : ℕ} (t : Fin n → SInt w) (z B : Fin n → ℤ), (∀ i, Bd (t i) (z i) (B i)) → ∑ i, B i < 2 ^ (w - 1) →
    Bd (Fin.foldl n (fun acc i => acc + t i) 0) (∑ i, z i) (∑ i, B i)
  | 0, t, z, B, _, _ => by
    rw [Fin.foldl_zero]
    simpa using bd_zero
  | n + 1, t, z, B, h, hs => by
    rw [Fin.foldl_succ_last, Fin.sum_univ_castSucc, Fin.sum_univ_castSucc]
    rw [Fin.sum_univ_castSucc] at hs
    have hB : 0 ≤ B (Fin.last n) := (abs_nonneg _).trans (h _).2
    exact (sum_int (fun i => t i.castSucc) (fun i => z i.castSucc) (fun i => B i.castSucc) (fun i => h _) (by linarith)).add (h _) hs

/-- The same loop without assumptions: defined if and only if all partial sums are in range. -/
theorem sum_int_iff : ∀ {n : ℕ} (t : Fin n → SInt w) (z : Fin n → ℤ), (∀ i, (t i).toInt = some (z i)) → ∀ s,
    ((Fin.foldl n (fun acc i => acc + t i) 0).toInt = some s ↔
      (∀ k : ℕ, k ≤ n → InRange w (∑ i : Fin n, if i.val < k then z i else 0)) ∧ s = ∑ i, z i)
  | 0, t, z, _, s => by
    rw [Fin.foldl_zero, zero_int]
    have h0 : InRange w 0 := inRange zero_int
    simp [h0, eq_comm]
  | n + 1, t, z, h, s => by
    rw [Fin.foldl_succ_last]
    have ih := sum_int_iff (fun i => t i.castSucc) (fun i => z i.castSucc) (fun i => h _)
    have e : ∀ k : ℕ, k ≤ n → (∑ i : Fin (n + 1), if i.val < k then z i else 0) = ∑ i : Fin n, if i.val < k then z i.castSucc else 0 := by
      intro k hk
      rw [Fin.sum_univ_castSucc]
      simp [hk]
    have e' : (∑ i : Fin (n + 1), if i.val < n + 1 then z i else 0) = ∑ i, z i :=
      Finset.sum_congr rfl fun i _ => if_pos i.isLt
    constructor
    · intro hs
      rcases ha : (Fin.foldl n (fun acc i => acc + t i.castSucc) 0).toInt with _ | a
      · rw [add_ub_left ha] at hs; exact (nomatch hs)
      · rw [add_int ha (h _)] at hs
        obtain ⟨h1, h2⟩ := (ih a).1 ha
        split_ifs at hs with hr
        have hs : a + z (Fin.last n) = s := by simpa using hs
        have hsum : s = ∑ i, z i := by rw [Fin.sum_univ_castSucc, ← h2, hs]
        refine ⟨fun k hk => ?_, hsum⟩
        rcases Nat.lt_or_ge n k with hk' | hk'
        · rw [show k = n + 1 by omega, e', ← hsum, ← hs]; exact hr
        · rw [e k hk']; exact h1 k hk'
    · rintro ⟨h1, rfl⟩
      have ha := (ih _).2 ⟨fun k hk => by rw [← e k hk]; exact h1 k (by omega), rfl⟩
      have h2 := h1 (n + 1) le_rfl
      rw [e', Fin.sum_univ_castSucc] at h2
      rw [add_int ha (h _), if_pos h2, Fin.sum_univ_castSucc]

/-- The values of a matrix. -/
def Vals {R C : ℕ} (m : Mat (SInt w) R C) (z : Mat ℤ R C) : Prop := ∀ c r, (m c r).toInt = some (z c r)

theorem det_bound {n : ℕ} {z : Mat ℤ n n} {M : ℤ} (h : ∀ c r, |z c r| ≤ M) : |(toMatrix z).det| ≤ n.factorial * M ^ n := by
  have := Matrix.det_le (A := toMatrix z) (abv := AbsoluteValue.abs) (x := M) (fun i j => h j i)
  simpa using this

theorem two_le_of {M : ℤ} {n : ℕ} (hM : 1 ≤ M) (h : (n.factorial : ℤ) * M ^ n < 2 ^ (w - 1)) : 2 ≤ w := by
  by_contra hc
  have h0 : w - 1 = 0 := by omega
  rw [h0, pow_zero] at h
  have h1 : (1 : ℤ) ≤ n.factorial := by exact_mod_cast Nat.factorial_pos n
  have h2 : (1 : ℤ) ≤ M ^ n := one_le_pow₀ hM
  nlinarith

theorem fact_step {M : ℤ} (hM : 1 ≤ M) (n : ℕ) : (n.factorial : ℤ) * M ^ n ≤ ((n + 1).factorial : ℤ) * M ^ (n + 1) := by
  rw [Nat.factorial_succ, pow_succ]
  push_cast
  have h1 : (0 : ℤ) ≤ n.factorial * M ^ n := by positivity
  have h2 : (1 : ℤ) ≤ (n + 1) * M := by nlinarith [Nat.zero_le n]
  nlinarith

/-- The determinant is exact if the bound of Leibniz' formula is in range. -/
theorem det_int {M : ℤ} (hM : 1 ≤ M) : ∀ (n : ℕ) (m : Mat (SInt w) (n + 1) (n + 1)) (z : Mat ℤ (n + 1) (n + 1)), Vals m z →
    (∀ c r, |z c r| ≤ M) → ((n + 1).factorial : ℤ) * M ^ (n + 1) < 2 ^ (w - 1) → (computeDeterminant n m).toInt = some (computeDeterminant n z)
  | 0, m, z, h, hz, hw => h 0 0
  | 1, m, z, h, hz, hw => by
    have b : ∀ c r, Bd (m c r) (z c r) M := fun c r => ⟨h c r, hz c r⟩
    have hw : 2 * M ^ 2 < 2 ^ (w - 1) := by simpa [Nat.factorial] using hw
    have hMM : M * M = M ^ 2 := by ring
    have h2 : 0 ≤ M ^ 2 := by positivity
    have p := fun c r c' r' => (b c r).mul (b c' r') (by rw [hMM]; linarith)
    exact ((p 0 0 1 1).sub (p 1 0 0 1) (by rw [hMM]; linarith)).1
  | 2, m, z, h, hz, hw => by
    have b : ∀ c r, Bd (m c r) (z c r) M := fun c r => ⟨h c r, hz c r⟩
    have hw : 6 * M ^ 3 < 2 ^ (w - 1) := by simpa [Nat.factorial] using hw
    have hMM : M * M = M ^ 2 := by ring
    have hMMM : M ^ 2 * M = M ^ 3 := by ring
    have h2 : M ^ 2 ≤ M ^ 3 := by nlinarith [sq_nonneg M]
    have h3 : 0 ≤ M ^ 2 := by positivity
    have p := fun c r c' r' c'' r'' => (((b c r).mul (b c' r') (by rw [hMM]; linarith)).mul (b c'' r'') (by rw [hMM, hMMM]; linarith)).mono
      (B := M ^ 3) (by rw [hMM, hMMM])
    exact ((((((p 0 0 1 1 2 2).add (p 1 0 2 1 0 2) (by linarith)).add (p 2 0 0 1 1 2) (by linarith)).sub (p 2 0 1 1 0 2) (by linarith)).sub
      (p 1 0 0 1 2 2) (by linarith)).sub (p 0 0 2 1 1 2) (by linarith)).1
  | n + 3, m, z, h, hz, hw => by
    have b : ∀ c r, Bd (m c r) (z c r) M := fun c r => ⟨h c r, hz c r⟩
    have hw2 := two_le_of hM hw
    have hs : (((n + 3).factorial : ℕ) : ℤ) * M ^ (n + 3) < 2 ^ (w - 1) := lt_of_le_of_lt (fact_step hM _) hw
    have hd : ∀ r, Bd (computeDeterminant (n + 2) (extractMinor m r 0)) (computeDeterminant (n + 2) (extractMinor z r 0))
        ((n + 3).factorial * M ^ (n + 3)) := by
      intro r
      have hz' : ∀ c r', |extractMinor z r 0 c r'| ≤ M := fun c r' => hz _ _
      refine ⟨det_int hM (n + 2) _ _ (fun c r' => h _ _) hz' hs, ?_⟩
      rw [computeDeterminant_eq]
      exact det_bound hz'
    have hMw : M < 2 ^ (w - 1) := by
      have h1 : (1 : ℤ) ≤ (n + 3).factorial := by exact_mod_cast Nat.factorial_pos _
      have h2 : M ≤ M ^ (n + 3) := by
        calc M = M ^ 1 := (pow_one M).symm
          _ ≤ M ^ (n + 3) := pow_le_pow_right₀ hM (by omega)
      nlinarith
    have hB : M * (((n + 3).factorial : ℕ) * M ^ (n + 3)) * (n + 4) = ((n + 3 + 1).factorial : ℕ) * M ^ (n + 3 + 1) := by
      rw [Nat.factorial_succ (n + 3), pow_succ]
      push_cast
      ring
    have hpos : (0 : ℤ) ≤ M * (((n + 3).factorial : ℕ) * M ^ (n + 3)) := by positivity
    have hle : M * (((n + 3).factorial : ℕ) * M ^ (n + 3)) ≤ ((n + 3 + 1).factorial : ℕ) * M ^ (n + 3 + 1) := by
      rw [← hB]
      have : (0 : ℤ) ≤ n := by positivity
      nlinarith
    have hf : ∀ r : Fin (n + 4), Bd (if r.val % 2 = 0 then (1 : SInt w) else -1) (if r.val % 2 = 0 then 1 else -1) 1 := by
      intro r
      split_ifs
      · exact bd_one hw2
      · exact (bd_one hw2).neg (one_lt_pow₀ (by norm_num) (by omega))
    have ht : ∀ r : Fin (n + 4), Bd ((if r.val % 2 = 0 then (1 : SInt w) else -1) * m 0 r * computeDeterminant (n + 2) (extractMinor m r 0))
        ((if r.val % 2 = 0 then 1 else -1) * z 0 r * computeDeterminant (n + 2) (extractMinor z r 0)) (M * (((n + 3).factorial : ℕ) * M ^ (n + 3))) := by
      intro r
      have h1 := ((hf r).mul (b 0 r) (by rw [one_mul]; exact hMw)).mono (B := M) (by rw [one_mul])
      exact h1.mul (hd r) (lt_of_le_of_lt hle hw)
    have hsum := sum_int _ _ _ ht (by
      rw [Finset.sum_const, Finset.card_univ, Fintype.card_fin, nsmul_eq_mul]
      push_cast
      have : ((n : ℤ) + 4) * (M * (((n + 3).factorial : ℕ) * M ^ (n + 3))) = ((n + 3 + 1).factorial : ℕ) * M ^ (n + 3 + 1) := by rw [← hB]; ring
      rw [this]
      exact hw)
    have e : computeDeterminant (n + 3) z = ∑ r : Fin (n + 4), (if r.val % 2 = 0 then 1 else -1) * z 0 r * computeDeterminant (n + 2) (extractMinor z r 0) := by
      rw [computeDeterminant, foldl_add_eq_sum, zero_add]
    rw [e]
    exact hsum.1

end SInt
end vm
