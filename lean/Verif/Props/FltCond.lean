import Verif.Lemmas.FltCond

/-! C146: when solutions and inverses are finite in IEEE arithmetic, and how far they are from the exact ones. -/

set_option linter.unusedSectionVars false
set_option linter.unusedSimpArgs false

namespace vm
open BinPar
variable {P : BinPar} {S : ℕ}

namespace FltCond

theorem limit_pivot : 1 ≤ 2 ^ 50 * lupLimit := by unfold lupLimit; norm_num

/-- Success means that there is a decomposition. -/
theorem solved {M : ℚ} {A : Mat (Flt P.fmt) S S} (hA : BoundedMat M A) {b x : Vec (Flt P.fmt) S} (h : lupSolve A b = (true, x)) :
    ∃ st, FltLup M A S st ∧ x = lupSolveInternal st.1 st.2 b := by
  rcases hA.cases with ⟨st, hst, hinv⟩ | ⟨hn, _⟩
  · rw [lupSolve, hst] at h
    exact ⟨st, hinv, (Prod.mk.inj h).2.symm⟩
  · rw [lupSolve, hn] at h
    exact absurd (Prod.mk.inj h).1 (by simp)

theorem inverted {M : ℚ} {A X : Mat (Flt P.fmt) S S} (hA : BoundedMat M A) (h : invert A = (true, X)) :
    ∃ st, FltLup M A S st ∧ X = fun j => lupSolveInternal st.1 st.2 (vaxis S j) := by
  rcases hA.cases with ⟨st, hst, hinv⟩ | ⟨hn, _⟩
  · rw [invert, hst] at h
    exact ⟨st, hinv, (Prod.mk.inj h).2.symm⟩
  · rw [invert, hn] at h
    exact absurd (Prod.mk.inj h).1 (by simp)

theorem axis_le (j i : Fin S) : ((vaxis S j : Vec (Flt P.fmt) S) i).isFinite ∧ |((vaxis S j : Vec (Flt P.fmt) S) i).val| ≤ 1 := by
  refine ⟨axis_finite j i, ?_⟩
  unfold vaxis
  split_ifs
  · rw [Flt.one_val, abs_one]
  · rw [Flt.zero_val, abs_zero]; norm_num

theorem rep_one : P.Rep 1 := ⟨1, 0, by norm_num, by have := P.hp; rw [abs_one]; exact_mod_cast Nat.one_lt_two_pow (by omega), by have := P.hmin; have := P.hp; omega⟩

/-- The pivots of a well conditioned matrix are not small. -/
theorem pivot_ge {M κ : ℚ} (hM0 : 0 ≤ M) {A : Mat (Flt P.fmt) S S} (hκ : ∀ v : Fin S → ℚ, ∃ r, κ * ∑ c, |v c| ≤ |∑ c, (A c r).val * v c|)
    {st : Mat (Flt P.fmt) S S × (Fin S → Fin S)} (h : FltLup M A S st) (k : Fin S) : κ - singularErr P S M ≤ |(st.1 k k).val| := by
  obtain ⟨v, hv0, hv⟩ := pivot_vector hM0 h k
  obtain ⟨r, hr⟩ := hκ v
  have pos : 0 < ∑ c, |v c| := by
    obtain ⟨c, hc⟩ := Function.ne_iff.1 hv0
    exact lt_of_lt_of_le (abs_pos.2 hc) (Finset.single_le_sum (f := fun c => |v c|) (fun c _ => abs_nonneg _) (Finset.mem_univ c))
  have := le_of_mul_le_mul_right (hr.trans (hv r)) pos
  linarith

theorem success {M κ : ℚ} {A : Mat (Flt P.fmt) S S} (hA : BoundedMat M A)
    (hκ : ∀ v : Fin S → ℚ, ∃ r, κ * ∑ c, |v c| ≤ |∑ c, (A c r).val * v c|) (hl : lupLimit + singularErr P S M < κ) (b : Vec (Flt P.fmt) S) :
    (lupSolve A b).1 = true ∧ (invert A).1 = true := by
  refine C112_success P A hA (fun v hv => ?_) b
  obtain ⟨r, hr⟩ := hκ v
  have pos : 0 < ∑ c, |v c| := by
    obtain ⟨c, hc⟩ := Function.ne_iff.1 hv
    exact lt_of_lt_of_le (abs_pos.2 hc) (Finset.single_le_sum (f := fun c => |v c|) (fun c _ => abs_nonneg _) (Finset.mem_univ c))
  exact ⟨r, lt_of_lt_of_le (mul_lt_mul_of_pos_right hl pos) hr⟩

/-- A small residual of a well conditioned system means a small error. -/
theorem forward_error {κ B : ℚ} {A : Mat (Flt P.fmt) S S} (hκ : ∀ v : Fin S → ℚ, ∃ r, κ * ∑ c, |v c| ≤ |∑ c, (A c r).val * v c|)
    {x z b : Fin S → ℚ} (hx : ∀ r, |(∑ c, (A c r).val * x c) - b r| ≤ B) (hz : ∀ r, ∑ c, (A c r).val * z c = b r) :
    κ * ∑ c, |x c - z c| ≤ B := by
  obtain ⟨r, hr⟩ := hκ fun c => x c - z c
  refine hr.trans (le_trans (le_of_eq ?_) (hx r))
  rw [← hz r, ← Finset.sum_sub_distrib]
  congr 1
  exact Finset.sum_congr rfl fun c _ => by ring

end FltCond

/-- If `lup_solve(A, b)` reports success then the solution contains no infinities and no NaN, provided that the entries of `A` are at most `2^g`,
those of `b` are at most `β`, and the exponent range of the type leaves room for the given power of two: the pivots are at least `1e-15`. -/
theorem C146_solve_finite (P : BinPar) {S g : ℕ} (A : Mat (Flt P.fmt) S S) (hA : BoundedMat (2 ^ g) A) {β : ℚ} (hβ : P.Rep β) (b x : Vec (Flt P.fmt) S)
    (hb : ∀ i, (b i).isFinite ∧ |(b i).val| ≤ β) (room : 2 ^ (S * (S + 1) + S * (2 * S + g + 50)) * β < P.bound)
    (h : lupSolve A b = (true, x)) (i : Fin S) :
    (x i).isFinite ∧ |(x i).val| ≤ 2 ^ (S * (S + 1) + S * (2 * S + g + 50)) * β := by
  obtain ⟨st, hst, rfl⟩ := FltCond.solved hA h
  exact FltCond.solve_bound hst (fun k => FltCond.limit_pivot.trans (mul_le_mul_of_nonneg_left (hst.diag k k.isLt) (by positivity))) hβ
    ((abs_nonneg _).trans (hb i).2) room b hb i

/-- The same for the inverse. -/
theorem C146_invert_finite (P : BinPar) {S g : ℕ} (A X : Mat (Flt P.fmt) S S) (hA : BoundedMat (2 ^ g) A)
    (room : 2 ^ (S * (S + 1) + S * (2 * S + g + 50)) < P.bound) (h : invert A = (true, X)) (j i : Fin S) :
    (X j i).isFinite ∧ |(X j i).val| ≤ 2 ^ (S * (S + 1) + S * (2 * S + g + 50)) := by
  obtain ⟨st, hst, rfl⟩ := FltCond.inverted hA h
  have := FltCond.solve_bound hst (fun k => FltCond.limit_pivot.trans (mul_le_mul_of_nonneg_left (hst.diag k k.isLt) (by positivity)))
    FltCond.rep_one zero_le_one (by rwa [mul_one]) (vaxis S j) (FltCond.axis_le j) i
  rwa [mul_one] at this

/-- For matrices of doubles with up to four rows, entries up to `2^100` and right hand sides up to `2^300`: whenever `lup_solve` reports success, the
solution is finite and solves the system up to rounding errors. -/
theorem C146_solve_double {S : ℕ} (hS : S ≤ 4) (A : Mat (Flt binary64.fmt) S S) (hA : ∀ c r, (A c r).isFinite ∧ |(A c r).val| ≤ 2 ^ 100)
    (b x : Vec (Flt binary64.fmt) S) (hb : ∀ i, (b i).isFinite ∧ |(b i).val| ≤ 2 ^ 300) (h : lupSolve A b = (true, x)) :
    (∀ i, (x i).isFinite) ∧ ∀ r, |(∑ c, (A c r).val * (x c).val) - (b r).val| ≤ lupBound binary64 S (2 ^ 100) (∑ c, |(x c).val|) := by
  have hB : BoundedMat (2 ^ 100) A := by
    refine ⟨by have := rep_pow_mul (FltCond.rep_one (P := binary64)) 100; rwa [mul_one] at this, ?_, fun c r => (hA c r).1, fun c r => (hA c r).2⟩
    rw [bound64, ← pow_add]
    exact pow_lt_pow_right₀ (by norm_num) (by omega)
  have hr : binary64.Rep (2 ^ 300) := by have := rep_pow_mul (FltCond.rep_one (P := binary64)) 300; rwa [mul_one] at this
  have hx : ∀ i, (x i).isFinite := fun i => (C146_solve_finite binary64 A hB hr b x hb (by
    rw [bound64, ← pow_add]
    exact pow_lt_pow_right₀ (by norm_num) (by interval_cases S <;> norm_num)) h i).1
  exact ⟨hx, C112_solve_residual binary64 A hB b x h hx⟩

/-- The hypotheses of `C146_solve_double` and of `C146_solve_finite` hold for the system `x + 3 y = 0`, `y = 1`. -/
example : let A : Mat (Flt binary64.fmt) 2 2 := translationMatrix ![dbl 3 0]
    (∀ c r, (A c r).isFinite ∧ |(A c r).val| ≤ 2 ^ 100) ∧ (∀ i, ((vaxis 2 1 : Vec (Flt binary64.fmt) 2) i).isFinite ∧ |((vaxis 2 1 : Vec (Flt binary64.fmt) 2) i).val| ≤ 2 ^ 300) ∧
    ∃ x, lupSolve A (vaxis 2 1) = (true, x) := by
  refine ⟨fun c r => ⟨shear_bounded.finite c r, (shear_bounded.le c r).trans (by norm_num)⟩, fun i => ⟨(FltCond.axis_le 1 i).1, (FltCond.axis_le 1 i).2.trans (one_le_pow₀ (by norm_num))⟩, ?_⟩
  obtain ⟨_, x, hx, _⟩ := shear_solved
  exact ⟨x, hx⟩

/-- For matrices of doubles with up to four rows and entries up to `2^100`: whenever `invert` reports success, the matrix that it returns is finite
and is an inverse up to rounding errors. -/
theorem C146_invert_double {S : ℕ} (hS : S ≤ 4) (A X : Mat (Flt binary64.fmt) S S) (hA : ∀ c r, (A c r).isFinite ∧ |(A c r).val| ≤ 2 ^ 100)
    (h : invert A = (true, X)) :
    (∀ c r, (X c r).isFinite) ∧
    ∀ j r, |(∑ c, (A c r).val * (X j c).val) - (if r = j then 1 else 0)| ≤ lupBound binary64 S (2 ^ 100) (∑ c, |(X j c).val|) := by
  have hB : BoundedMat (2 ^ 100) A := by
    refine ⟨by have := rep_pow_mul (FltCond.rep_one (P := binary64)) 100; rwa [mul_one] at this, ?_, fun c r => (hA c r).1, fun c r => (hA c r).2⟩
    rw [bound64, ← pow_add]
    exact pow_lt_pow_right₀ (by norm_num) (by omega)
  have hX : ∀ j i, (X j i).isFinite := fun j i => (C146_invert_finite binary64 A X hB (by
    rw [bound64]
    exact pow_lt_pow_right₀ (by norm_num) (by interval_cases S <;> norm_num)) h j i).1
  exact ⟨hX, C112_invert_residual binary64 A X hB h hX⟩

/-- The hypotheses of `C146_invert_double` and `C146_invert_finite` hold for the mirror matrix. -/
example : (∀ c r, ((mirrorX : Mat (Flt binary64.fmt) 4 4) c r).isFinite ∧ |((mirrorX : Mat (Flt binary64.fmt) 4 4) c r).val| ≤ 2 ^ 100) ∧
    ∃ X, invert (mirrorX : Mat (Flt binary64.fmt) 4 4) = (true, X) := by
  refine ⟨fun c r => ?_, _, (C113_constants binary64).2.2.2.2.2.2.2.2.2.1⟩
  have hm : ∀ c r : Fin 4, (mirrorX : Mat (Flt binary64.fmt) 4 4) c r = if r = Equiv.refl _ c then (![-1, 1, 1, 1] : Vec (Flt binary64.fmt) 4) c else 0 :=
    fun c r => (opposite_mx c r).1
  have hd : ∀ c, (![-1, 1, 1, 1] : Vec (Flt binary64.fmt) 4) c = 1 ∨ (![-1, 1, 1, 1] : Vec (Flt binary64.fmt) 4) c = -1 := by
    intro c; fin_cases c
    · exact Or.inr rfl
    all_goals exact Or.inl rfl
  have h1 : (1 : ℚ) ≤ 2 ^ 100 := by norm_num
  rw [hm]
  split_ifs
  · rcases hd c with h | h
    · rw [h]; exact ⟨Flt.one_finite, by rw [Flt.one_val, abs_one]; exact h1⟩
    · rw [h]; exact ⟨Flt.neg_finite.2 Flt.one_finite, by rw [Flt.neg_val, Flt.one_val, abs_neg, abs_one]; exact h1⟩
  · exact ⟨Flt.zero_finite, by rw [Flt.zero_val, abs_zero]; linarith⟩

/-- A well conditioned system in any binary format. If `κ |v|₁ ≤ |A v|∞` for all `v`, with `κ` above the limit `1e-15` and the rounding errors of the
decomposition, and if the pivots that are then possible leave enough exponent range, then `lup_solve` succeeds, every component of the solution is
finite, and the distance from an exact solution is at most a small multiple of the condition number and the rounding unit. -/
theorem C146_well_conditioned (P : BinPar) {S g e : ℕ} (A : Mat (Flt P.fmt) S S) (hA : BoundedMat (2 ^ g) A) {κ : ℚ}
    (hκ : ∀ v : Fin S → ℚ, ∃ r, κ * ∑ c, |v c| ≤ |∑ c, (A c r).val * v c|) (hl : lupLimit + singularErr P S (2 ^ g) < κ)
    (he : 1 ≤ 2 ^ e * (κ - singularErr P S (2 ^ g))) {β : ℚ} (hβ : P.Rep β) (b : Vec (Flt P.fmt) S) (hb : ∀ i, (b i).isFinite ∧ |(b i).val| ≤ β)
    (room : 2 ^ (S * (S + 1) + S * (2 * S + g + e)) * β < P.bound) :
    ∃ x, lupSolve A b = (true, x) ∧ (∀ i, (x i).isFinite ∧ |(x i).val| ≤ 2 ^ (S * (S + 1) + S * (2 * S + g + e)) * β) ∧
      ∀ z : Fin S → ℚ, (∀ r, ∑ c, (A c r).val * z c = (b r).val) →
        κ * ∑ c, |(x c).val - z c| ≤ lupBound P S (2 ^ g) (∑ c, |(x c).val|) := by
  have hs := (FltCond.success hA hκ hl b).1
  refine ⟨(lupSolve A b).2, Prod.ext hs rfl, ?_⟩
  have h : lupSolve A b = (true, (lupSolve A b).2) := Prod.ext hs rfl
  have hx : ∀ i, ((lupSolve A b).2 i).isFinite ∧ |((lupSolve A b).2 i).val| ≤ 2 ^ (S * (S + 1) + S * (2 * S + g + e)) * β := by
    intro i
    obtain ⟨st, hst, hx⟩ := FltCond.solved hA h
    rw [hx]
    exact FltCond.solve_bound hst (fun k => he.trans (mul_le_mul_of_nonneg_left (FltCond.pivot_ge (by positivity) hκ hst k) (by positivity))) hβ
      ((abs_nonneg _).trans (hb i).2) room b hb i
  exact ⟨hx, fun z hz => FltCond.forward_error hκ (C112_solve_residual P A hA b _ h fun c => (hx c).1) hz⟩

/-- The same for the inverse: it exists, is finite, and each of its columns is close to that of an exact inverse. -/
theorem C146_well_conditioned_inverse (P : BinPar) {S g e : ℕ} (A : Mat (Flt P.fmt) S S) (hA : BoundedMat (2 ^ g) A) {κ : ℚ}
    (hκ : ∀ v : Fin S → ℚ, ∃ r, κ * ∑ c, |v c| ≤ |∑ c, (A c r).val * v c|) (hl : lupLimit + singularErr P S (2 ^ g) < κ)
    (he : 1 ≤ 2 ^ e * (κ - singularErr P S (2 ^ g))) (room : 2 ^ (S * (S + 1) + S * (2 * S + g + e)) < P.bound) :
    ∃ X, invert A = (true, X) ∧ (∀ j i, (X j i).isFinite ∧ |(X j i).val| ≤ 2 ^ (S * (S + 1) + S * (2 * S + g + e))) ∧
      ∀ Z : Mat ℚ S S, (∀ j r, ∑ c, (A c r).val * Z j c = if r = j then 1 else 0) →
        ∀ j, κ * ∑ c, |(X j c).val - Z j c| ≤ lupBound P S (2 ^ g) (∑ c, |(X j c).val|) := by
  have hs := (FltCond.success hA hκ hl 0).2
  have h : invert A = (true, (invert A).2) := Prod.ext hs rfl
  have hx : ∀ j i, ((invert A).2 j i).isFinite ∧ |((invert A).2 j i).val| ≤ 2 ^ (S * (S + 1) + S * (2 * S + g + e)) := by
    intro j i
    obtain ⟨st, hst, hx⟩ := FltCond.inverted hA h
    have := FltCond.solve_bound hst (fun k => he.trans (mul_le_mul_of_nonneg_left (FltCond.pivot_ge (by positivity) hκ hst k) (by positivity)))
      FltCond.rep_one zero_le_one (by rwa [mul_one]) (vaxis S j) (FltCond.axis_le j) i
    rw [mul_one] at this
    rw [hx]
    exact this
  exact ⟨_, h, hx, fun Z hZ j => FltCond.forward_error hκ (fun r => C112_invert_residual P A _ hA h (fun c r => (hx c r).1) j r) (hZ j)⟩

namespace FltCond

theorem rep_dyadic32 {m e : ℤ} (hm : |m| ≤ 4) (he : -149 ≤ e) (he' : e ≤ 125) : binary32.fmt.rep (m * 2 ^ e) := by
  refine ⟨⟨m, e, rfl, lt_of_le_of_lt hm (by norm_num [binary32]), he⟩, ?_⟩
  have h1 : (2 : ℚ) ^ e ≤ 2 ^ (125 : ℤ) := zpow_le_zpow_right₀ (by norm_num) he'
  have h2 : |(m : ℚ)| ≤ 4 := by exact_mod_cast hm
  rw [abs_mul, abs_of_pos (BinPar.two_zpow_pos e)]
  calc |(m : ℚ)| * 2 ^ e ≤ 4 * 2 ^ (125 : ℤ) := mul_le_mul h2 h1 (BinPar.two_zpow_pos e).le (by norm_num)
    _ < 2 ^ ((24 : ℕ) + 104 : ℤ) := by norm_num

/-- The float `m * 2 ^ e`. -/
def sgl (m e : ℤ) (hm : |m| ≤ 4 := by decide) (he : -149 ≤ e := by decide) (he' : e ≤ 125 := by decide) : Flt binary32.fmt :=
  Flt.fin (F := binary32.fmt) (m * 2 ^ e) (rep_dyadic32 hm he he')

theorem sgl_val (m e : ℤ) (hm : |m| ≤ 4) (he : -149 ≤ e) (he' : e ≤ 125) : (sgl m e hm he he').val = m * 2 ^ e := rfl

/-- The matrix of the system `2 x + y`, `x + 2 y`. -/
def exA : Mat (Flt binary32.fmt) 2 2 := ![![sgl 2 0, 1], ![1, sgl 2 0]]

end FltCond

/-- The hypotheses of `C146_well_conditioned` and `C146_well_conditioned_inverse` hold for the system `2 x + y = 1`, `x + 2 y = 0` in single
precision, with `κ = 1/2`. -/
example : BoundedMat (2 ^ 1) FltCond.exA ∧ (∀ v : Fin 2 → ℚ, ∃ r, (1 / 2) * ∑ c, |v c| ≤ |∑ c, (FltCond.exA c r).val * v c|) ∧
    lupLimit + singularErr binary32 2 (2 ^ 1) < 1 / 2 ∧ (1 : ℚ) ≤ 2 ^ 2 * (1 / 2 - singularErr binary32 2 (2 ^ 1)) ∧ binary32.Rep 1 ∧
    (∀ i, ((vaxis 2 0 : Vec (Flt binary32.fmt) 2) i).isFinite ∧ |((vaxis 2 0 : Vec (Flt binary32.fmt) 2) i).val| ≤ 1) ∧
    2 ^ (2 * (2 + 1) + 2 * (2 * 2 + 1 + 2)) * (1 : ℚ) < binary32.bound := by
  have h2 : (FltCond.sgl 2 0).val = 2 := by rw [FltCond.sgl_val]; norm_num
  have hk : singularErr binary32 2 (2 ^ 1) ≤ 1 / 2 ^ 10 := by
    have hu : binary32.u = 1 / 2 ^ 24 := by norm_num [BinPar.u, binary32]
    have he : binary32.eta ≤ 1 / 2 ^ 24 := by
      rw [← hu]
      exact zpow_le_zpow_right₀ (by norm_num) (by norm_num [binary32])
    have := binary32.eta_pos
    unfold singularErr
    rw [hu]
    norm_num at he ⊢
    linarith
  refine ⟨⟨?_, ?_, ?_, ?_⟩, ?_, ?_, ?_, FltCond.rep_one, FltCond.axis_le 0, ?_⟩
  · have := rep_pow_mul (FltCond.rep_one (P := binary32)) 1; rwa [mul_one] at this
  · norm_num [BinPar.bound, binary32]
  · intro c r; fin_cases c <;> fin_cases r <;> trivial
  · intro c r; fin_cases c <;> fin_cases r
    · show |(FltCond.sgl 2 0).val| ≤ _; rw [h2]; norm_num
    · show |(1 : ℚ)| ≤ _; norm_num
    · show |(1 : ℚ)| ≤ _; norm_num
    · show |(FltCond.sgl 2 0).val| ≤ _; rw [h2]; norm_num
  · intro v
    have e0 : ∑ c, (FltCond.exA c 0).val * v c = 2 * v 0 + v 1 := by
      rw [Fin.sum_univ_two]
      show (FltCond.sgl 2 0).val * v 0 + 1 * v 1 = _
      rw [h2]; ring
    have e1 : ∑ c, (FltCond.exA c 1).val * v c = v 0 + 2 * v 1 := by
      rw [Fin.sum_univ_two]
      show 1 * v 0 + (FltCond.sgl 2 0).val * v 1 = _
      rw [h2]; ring
    by_contra hc
    push Not at hc
    have c0 := hc 0
    have c1 := hc 1
    rw [e0, Fin.sum_univ_two] at c0
    rw [e1, Fin.sum_univ_two] at c1
    rcases abs_cases (v 0) with ⟨a, _⟩ | ⟨a, _⟩ <;> rcases abs_cases (v 1) with ⟨a', _⟩ | ⟨a', _⟩ <;>
      rw [a, a', abs_lt] at c0 c1 <;> linarith [c0.1, c0.2, c1.1, c1.2]
  · have : lupLimit ≤ 1 / 10 := by unfold lupLimit; norm_num
    norm_num at hk ⊢; linarith
  · norm_num at hk ⊢; linarith
  · norm_num [BinPar.bound, binary32]

/-- In single precision success does not mean that the inverse is finite, even for entries that are at most 1: the limit for the pivots is made for
doubles. For a 3 × 3 matrix `invert` reports success and an infinite entry. -/
theorem C146_float_overflow_fails : ∃ (A X : Mat (Flt binary32.fmt) 3 3), (∀ c r, (A c r).isFinite ∧ |(A c r).val| ≤ 1) ∧
    invert A = (true, X) ∧ X 2 0 = Flt.pinf := by
  set d := FltCond.sgl 1 (-49) with hd
  have dv : d.val = 1 / 2 ^ 49 := by rw [hd, FltCond.sgl_val]; norm_num
  have df : d.isFinite := trivial
  set A : Mat (Flt binary32.fmt) 3 3 := ![![d, 0, 0], ![1, d, 0], ![0, 1, d]] with hA
  have hf : ∀ c r, (A c r).isFinite ∧ |(A c r).val| ≤ 1 := by
    have h0 : (0 : Flt binary32.fmt).isFinite ∧ |(0 : Flt binary32.fmt).val| ≤ 1 := ⟨Flt.zero_finite, by rw [Flt.zero_val]; norm_num⟩
    have h1 : (1 : Flt binary32.fmt).isFinite ∧ |(1 : Flt binary32.fmt).val| ≤ 1 := ⟨Flt.one_finite, by rw [Flt.one_val]; norm_num⟩
    have h2 : d.isFinite ∧ |d.val| ≤ 1 := ⟨df, by rw [dv]; norm_num [abs_of_pos]⟩
    intro c r
    fin_cases c <;> fin_cases r <;> first | exact h0 | exact h1 | exact h2
  refine ⟨A, _, hf, upper_invert (fun c r => (hf c r).1) ?_ (Equiv.refl _) (fun _ _ => rfl) ?_, ?_⟩
  · intro c i hci
    fin_cases c <;> fin_cases i <;> first | rfl | exact absurd hci (by decide)
  · intro k
    have : lupLimit ≤ |d.val| := by rw [dv]; unfold lupLimit; norm_num [abs_of_pos]
    fin_cases k <;> exact this
  show lupBackward A (vaxis 3 2) 0 = Flt.pinf
  have d0 : d.val ≠ 0 := by rw [dv]; norm_num
  have f2 : (FltCond.sgl 1 49).isFinite := trivial
  have f1 : (FltCond.sgl (-1) 98).isFinite := trivial
  have x2 : lupBackward A (vaxis 3 2) 2 = FltCond.sgl 1 49 := by
    rw [lupBackward_eq]
    show (1 - 0) / d = _
    rw [Flt.sub_zero', fin_div_fin Flt.one_finite df d0, Flt.one_val, dv]
    refine Eq.trans (congrArg Flt.round ?_) (Flt.round_of_rep (F := binary32.fmt) (FltCond.rep_dyadic32 (m := 1) (e := 49) (by decide) (by decide) (by decide)))
    norm_num
  have x1 : lupBackward A (vaxis 3 2) 1 = FltCond.sgl (-1) 98 := by
    rw [lupBackward_eq]
    show (0 - (0 + 1 * lupBackward A (vaxis 3 2) 2)) / d = _
    rw [x2, Flt.one_mul', Flt.zero_add', Flt.zero_sub', fin_div_fin (Flt.neg_finite.2 f2) df d0, Flt.neg_val, dv, FltCond.sgl_val]
    refine Eq.trans (congrArg Flt.round ?_) (Flt.round_of_rep (F := binary32.fmt) (FltCond.rep_dyadic32 (m := -1) (e := 98) (by decide) (by decide) (by decide)))
    norm_num
  rw [lupBackward_eq]
  show (0 - (0 + 1 * lupBackward A (vaxis 3 2) 1 + 0 * lupBackward A (vaxis 3 2) 2)) / d = _
  rw [x1, x2, Flt.one_mul', Flt.zero_add', Flt.zero_mul_fin f2, Flt.add_zero', Flt.zero_sub', fin_div_fin (Flt.neg_finite.2 f1) df d0,
    Flt.neg_val, dv, FltCond.sgl_val]
  apply round_over
  norm_num [BinPar.bound, binary32]

end vm
