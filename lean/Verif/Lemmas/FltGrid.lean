import Verif.Lemmas.FltGeom
import Verif.Lemmas.FltCmp
import Verif.Lemmas.IntC

/-! Numbers of an IEEE format on a grid of powers of two: sums, differences and products are exact as long as the multiples fit. -/

set_option linter.unusedSectionVars false
set_option linter.unusedSimpArgs false

namespace vm
variable {P : BinPar}

/-- The format has the multiples of `2 ^ g` with up to `p` bits. -/
def BinPar.Ok (P : BinPar) (g : ℤ) : Prop := P.qmin ≤ g ∧ g ≤ P.qmax

theorem BinPar.ok_zero (P : BinPar) : P.Ok 0 := ⟨by have := P.hmin; have := P.hp; omega, by have := P.hmax; omega⟩

theorem BinPar.Ok.mul {g : ℤ} {n k : ℕ} (h : P.Ok (n * g)) (hk : k ≤ n) : P.Ok (k * g) := by
  obtain ⟨h1, h2⟩ := P.ok_zero
  obtain ⟨h3, h4⟩ := h
  have hk' : (k : ℤ) ≤ n := by exact_mod_cast hk
  have hk0 : (0 : ℤ) ≤ k := by positivity
  rcases le_total 0 g with hg | hg
  · exact ⟨h1.trans (mul_nonneg hk0 hg), (mul_le_mul_of_nonneg_right hk' hg).trans h4⟩
  · exact ⟨h3.trans (by nlinarith), le_trans (by nlinarith) h2⟩

/-- `x` is `z` steps of the grid `2 ^ g`, and `z` is at most `B`. -/
structure Gr (g : ℤ) (x : Flt P.fmt) (z B : ℤ) : Prop where
  fin : x.isFinite
  val : x.val = z * 2 ^ g
  le : |z| ≤ B

namespace Gr

theorem round {g z B : ℤ} {q : ℚ} (hg : P.Ok g) (hq : q = z * 2 ^ g) (hz : |z| ≤ B) (hB : B < 2 ^ P.p) : Gr g (Flt.round q : Flt P.fmt) z B := by
  have h2 : (0 : ℚ) < 2 ^ g := zpow_pos (by norm_num) _
  have hz' : |z| < 2 ^ P.p := lt_of_le_of_lt hz hB
  have hr : P.Rep q := ⟨z, g, hq, hz', hg.1⟩
  have hb : |q| < P.bound := by
    rw [hq, abs_mul, abs_of_pos h2]
    have h1 : |(z : ℚ)| < 2 ^ P.p := by exact_mod_cast hz'
    calc |(z : ℚ)| * 2 ^ g < 2 ^ P.p * 2 ^ g := mul_lt_mul_of_pos_right h1 h2
      _ ≤ 2 ^ P.p * 2 ^ P.qmax := mul_le_mul_of_nonneg_left (zpow_le_zpow_right₀ (by norm_num) hg.2) (by positivity)
      _ = P.bound := by
        unfold BinPar.bound
        rw [zpow_add₀ (by norm_num), zpow_natCast]
  have hf : (Flt.round q : Flt P.fmt).isFinite := Flt.round_finite.2 (by rw [P.fl_rep hr]; exact hb)
  exact ⟨hf, by rw [Flt.round_val hf, P.fl_rep hr, hq], hz⟩

variable {g g' : ℤ} {x y : Flt P.fmt} {a b A B : ℤ}

theorem add (hx : Gr g x a A) (hy : Gr g y b B) (hg : P.Ok g) (h : A + B < 2 ^ P.p) : Gr g (x + y) (a + b) (A + B) := by
  rw [Flt.add_eq hx.fin hy.fin]
  exact round hg (by rw [hx.val, hy.val]; push_cast; ring) ((abs_add_le _ _).trans (add_le_add hx.le hy.le)) h

theorem sub (hx : Gr g x a A) (hy : Gr g y b B) (hg : P.Ok g) (h : A + B < 2 ^ P.p) : Gr g (x - y) (a - b) (A + B) := by
  rw [Flt.sub_eq hx.fin hy.fin]
  exact round hg (by rw [hx.val, hy.val]; push_cast; ring) ((abs_sub _ _).trans (add_le_add hx.le hy.le)) h

theorem mul (hx : Gr g x a A) (hy : Gr g' y b B) (hg : P.Ok (g + g')) (h : A * B < 2 ^ P.p) : Gr (g + g') (x * y) (a * b) (A * B) := by
  rw [Flt.mul_eq hx.fin hy.fin]
  refine round hg ?_ ?_ h
  · rw [hx.val, hy.val, zpow_add₀ (by norm_num)]; push_cast; ring
  · rw [abs_mul]
    exact mul_le_mul hx.le hy.le (abs_nonneg _) ((abs_nonneg _).trans hx.le)

theorem neg (hx : Gr g x a A) : Gr g (-x) (-a) A :=
  ⟨Flt.neg_finite.2 hx.fin, by rw [Flt.neg_val, hx.val]; push_cast; ring, by rw [abs_neg]; exact hx.le⟩

theorem mono (hx : Gr g x a A) (h : A ≤ B) : Gr g x a B := ⟨hx.fin, hx.val, hx.le.trans h⟩

theorem cast (hx : Gr g x a A) (h : g = g') : Gr g' x a A := h ▸ hx

theorem zero (g : ℤ) : Gr g (0 : Flt P.fmt) 0 0 := ⟨Flt.zero_finite, by rw [Flt.zero_val]; simp, by simp⟩

theorem one : Gr 0 (1 : Flt P.fmt) 1 1 := ⟨Flt.one_finite, by rw [Flt.one_val]; simp, by simp⟩

theorem lt (hx : Gr g x a A) (hy : Gr g y b B) : Cmp.lt x y = decide (a < b) := by
  rw [Flt.lt_val hx.fin hy.fin, hx.val, hy.val, decide_eq_decide, mul_lt_mul_iff_left₀ (zpow_pos (by norm_num) _)]
  exact Int.cast_lt

theorem abs (hx : Gr g x a A) : Gr g (vm.abs x) |a| A := by
  unfold vm.abs
  rw [hx.lt (zero g)]
  by_cases h : a < 0
  · rw [if_pos (decide_eq_true h), abs_of_neg h]; exact hx.neg
  · rw [if_neg (by simpa using h), abs_of_nonneg (not_lt.1 h)]; exact hx

/-- A loop that adds up terms. -/
theorem sum (hg : P.Ok g) : ∀ {n : ℕ} (t : Fin n → Flt P.fmt) (z B : Fin n → ℤ), (∀ i, Gr g (t i) (z i) (B i)) → ∑ i, B i < 2 ^ P.p →
    Gr g (Fin.foldl n (fun acc i => acc + t i) 0) (∑ i, z i) (∑ i, B i)
  | 0, t, z, B, h, hs => by simpa using Gr.zero g
  | n + 1, t, z, B, h, hs => by
    rw [Fin.foldl_succ_last, Fin.sum_univ_castSucc, Fin.sum_univ_castSucc]
    rw [Fin.sum_univ_castSucc] at hs
    have hB : 0 ≤ B (Fin.last n) := (abs_nonneg _).trans (h _).le
    exact (sum hg (fun i => t i.castSucc) (fun i => z i.castSucc) (fun i => B i.castSucc) (fun i => h _) (by linarith)).add (h _) hg hs

/-- The determinant is exact if the bound of Leibniz' formula fits into `p` bits. -/
theorem det {M : ℤ} (hM : 1 ≤ M) : ∀ (n : ℕ), P.Ok ((n + 1 : ℕ) * g) → ∀ (m : Mat (Flt P.fmt) (n + 1) (n + 1)) (z : Mat ℤ (n + 1) (n + 1)),
    (∀ c r, Gr g (m c r) (z c r) M) → ((n + 1).factorial : ℤ) * M ^ (n + 1) < 2 ^ P.p →
    Gr ((n + 1 : ℕ) * g) (computeDeterminant n m) (computeDeterminant n z) ((n + 1).factorial * M ^ (n + 1))
  | 0, _, m, z, h, _ => ((h 0 0).cast (by simp)).mono (by simp)
  | 1, hg, m, z, h, hw => by
    have hw : 2 * M ^ 2 < 2 ^ P.p := by simpa [Nat.factorial] using hw
    have hMM : M * M = M ^ 2 := by ring
    have h2 : 0 ≤ M ^ 2 := by positivity
    have eg : g + g = ((1 + 1 : ℕ) : ℤ) * g := by push_cast; ring
    have p := fun c r c' r' => ((h c r).mul (h c' r') (by rw [eg]; exact hg) (by rw [hMM]; linarith)).cast eg
    exact ((p 0 0 1 1).sub (p 1 0 0 1) hg (by rw [hMM]; linarith)).mono (by rw [hMM]; simp [Nat.factorial]; linarith)
  | 2, hg, m, z, h, hw => by
    have hw : 6 * M ^ 3 < 2 ^ P.p := by simpa [Nat.factorial] using hw
    have hMM : M * M = M ^ 2 := by ring
    have hMMM : M ^ 2 * M = M ^ 3 := by ring
    have h2 : M ^ 2 ≤ M ^ 3 := by nlinarith [sq_nonneg M]
    have h3 : 0 ≤ M ^ 2 := by positivity
    have eg : g + g + g = ((2 + 1 : ℕ) : ℤ) * g := by push_cast; ring
    have eg2 : g + g = ((2 : ℕ) : ℤ) * g := by push_cast; ring
    have p := fun c r c' r' c'' r'' => ((((h c r).mul (h c' r') (by rw [eg2]; exact hg.mul (by norm_num)) (by rw [hMM]; linarith)).mul (h c'' r'')
      (by rw [eg]; exact hg) (by rw [hMM, hMMM]; linarith)).mono (B := M ^ 3) (by rw [hMM, hMMM])).cast eg
    exact ((((((p 0 0 1 1 2 2).add (p 1 0 2 1 0 2) hg (by linarith)).add (p 2 0 0 1 1 2) hg (by linarith)).sub (p 2 0 1 1 0 2) hg (by linarith)).sub
      (p 1 0 0 1 2 2) hg (by linarith)).sub (p 0 0 2 1 1 2) hg (by linarith)).mono (by simp [Nat.factorial]; linarith)
  | n + 3, hg, m, z, h, hw => by
    have hs : (((n + 3).factorial : ℕ) : ℤ) * M ^ (n + 3) < 2 ^ P.p := lt_of_le_of_lt (SInt.fact_step hM _) hw
    have hd : ∀ r, Gr ((n + 2 + 1 : ℕ) * g) (computeDeterminant (n + 2) (extractMinor m r 0)) (computeDeterminant (n + 2) (extractMinor z r 0))
        ((n + 3).factorial * M ^ (n + 3)) :=
      fun r => det hM (n + 2) (hg.mul (by omega)) _ _ (fun c r' => h _ _) hs
    have hMw : M < 2 ^ P.p := by
      have h1 : (1 : ℤ) ≤ (n + 3).factorial := by exact_mod_cast Nat.factorial_pos _
      have h2 : M ≤ M ^ (n + 3) := by
        calc M = M ^ 1 := (pow_one M).symm
          _ ≤ M ^ (n + 3) := pow_le_pow_right₀ hM (by omega)
      nlinarith
    have hB : M * (((n + 3).factorial : ℕ) * M ^ (n + 3)) * (n + 4) = ((n + 3 + 1).factorial : ℕ) * M ^ (n + 3 + 1) := by
      rw [Nat.factorial_succ (n + 3), pow_succ]
      push_cast
      ring
    have hpos : (0 : ℤ) ≤ M * (((n + 3).factorial : ℕ) * M ^ (n + 3)) := by positivity
    have hle : M * (((n + 3).factorial : ℕ) * M ^ (n + 3)) ≤ ((n + 3 + 1).factorial : ℕ) * M ^ (n + 3 + 1) := by
      rw [← hB]
      have : (0 : ℤ) ≤ n := by positivity
      nlinarith
    have hf : ∀ r : Fin (n + 4), Gr 0 (if r.val % 2 = 0 then (1 : Flt P.fmt) else -1) (if r.val % 2 = 0 then 1 else -1) 1 := by
      intro r
      split_ifs
      · exact one
      · exact one.neg
    have eg : 0 + g + ((n + 2 + 1 : ℕ) : ℤ) * g = ((n + 3 + 1 : ℕ) : ℤ) * g := by push_cast; ring
    have hg1 : P.Ok (0 + g) := by
      have := hg.mul (k := 1) (by omega)
      simpa using this
    have ht : ∀ r : Fin (n + 4), Gr ((n + 3 + 1 : ℕ) * g) ((if r.val % 2 = 0 then (1 : Flt P.fmt) else -1) * m 0 r * computeDeterminant (n + 2) (extractMinor m r 0))
        ((if r.val % 2 = 0 then 1 else -1) * z 0 r * computeDeterminant (n + 2) (extractMinor z r 0)) (M * (((n + 3).factorial : ℕ) * M ^ (n + 3))) := by
      intro r
      have h1 := ((hf r).mul (h 0 r) hg1 (by rw [one_mul]; exact hMw)).mono (B := M) (by rw [one_mul])
      exact (h1.mul (hd r) (by rw [eg]; exact hg) (lt_of_le_of_lt hle hw)).cast eg
    have hBs : (∑ _i : Fin (n + 4), M * (((n + 3).factorial : ℕ) * M ^ (n + 3))) = ((n + 3 + 1).factorial : ℕ) * M ^ (n + 3 + 1) := by
      rw [Finset.sum_const, Finset.card_univ, Fintype.card_fin, nsmul_eq_mul, ← hB]
      push_cast
      ring
    have hsum := sum hg _ _ _ ht (by rw [hBs]; exact hw)
    have e : computeDeterminant (n + 3) z = ∑ r : Fin (n + 4), (if r.val % 2 = 0 then 1 else -1) * z 0 r * computeDeterminant (n + 2) (extractMinor z r 0) := by
      rw [computeDeterminant, foldl_add_eq_sum, zero_add]
    rw [e, ← hBs]
    exact hsum

end Gr
end vm
