import Verif.Lemmas.FltAffine
import Verif.Props.FltPoints

/-!
# C144: inverses of affine matrices and `coordinate_system_matrix` in IEEE arithmetic

The inverse of an affine matrix is an affine matrix, exactly, and its linear part is exactly the inverse of the linear part.  Transforming a
point by the inverse and then by the matrix gives the point back up to rounding errors that grow with the entries of the inverse.
-/

set_option linter.unusedSectionVars false
set_option linter.unusedSimpArgs false

namespace vm
open BinPar FltAff
variable {P : BinPar}

/-- Whether an affine matrix can be inverted, or a system with such a matrix solved, is decided by its linear part alone. -/
theorem C144_success {n : ℕ} {M : ℚ} (A : Mat (Flt P.fmt) (n + 1) (n + 1)) (hA : BoundedMat M A)
    (hl : ∀ c, A c (Fin.last n) = if c = Fin.last n then 1 else 0) :
    (invert A).1 = (invert (fun c r : Fin n => A c.castSucc r.castSucc)).1 ∧
    ∀ (b : Vec (Flt P.fmt) (n + 1)) (b' : Vec (Flt P.fmt) n),
      (lupSolve A b).1 = (lupSolve (fun c r : Fin n => A c.castSucc r.castSucc) b').1 := by
  have e : (fun c r : Fin n => A c.castSucc r.castSucc) = FltAff.block A := rfl
  rw [e]
  unfold invert lupSolve
  rcases decomposition hA hl with ⟨h1, h2⟩ | ⟨s, s', h1, h2, -, -⟩
  · rw [h1, h2]; exact ⟨rfl, fun _ _ => rfl⟩
  · rw [h1, h2]; exact ⟨rfl, fun _ _ => rfl⟩

/-- The solution of a system with an affine matrix: the last component of the solution is the last component of the right hand side, and if
that is zero, then the others are exactly the solution of the system with the linear part. -/
theorem C144_solve {n : ℕ} {M : ℚ} (A : Mat (Flt P.fmt) (n + 1) (n + 1)) (hA : BoundedMat M A)
    (hl : ∀ c, A c (Fin.last n) = if c = Fin.last n then 1 else 0) (b x : Vec (Flt P.fmt) (n + 1))
    (h : lupSolve A b = (true, x)) (hx : ∀ c, (x c).isFinite) :
    x (Fin.last n) = b (Fin.last n) ∧
    (b (Fin.last n) = 0 → lupSolve (fun c r : Fin n => A c.castSucc r.castSucc) (fun r => b r.castSucc) = (true, fun c => x c.castSucc)) := by
  have e : (fun c r : Fin n => A c.castSucc r.castSucc) = FltAff.block A := rfl
  rw [e]
  unfold lupSolve at h ⊢
  rcases decomposition hA hl with ⟨h1, h2⟩ | ⟨s, s', h1, h2, hr, hL⟩
  · rw [h1] at h; cases h
  · rw [h1] at h
    rw [h2]
    simp only [Prod.mk.injEq, true_and] at h ⊢
    subst h
    have hy : ∀ i, (lupForward s.1 s.2 b i).isFinite := fun i =>
      (backward_err s.1 _ i (hL.fin i i) (by
        intro h0
        have := hL.diag i i.isLt
        rw [h0, abs_zero] at this
        exact absurd this (not_le.2 lupLimit_pos)) (hx i)).1
    have hf := forward_last hr b fun i => hy i.castSucc
    refine ⟨(backward_last hr _).trans hf, fun h0 => ?_⟩
    funext i
    show lupBackward _ _ _ = lupBackward _ _ _
    rw [backward hr hL.fin _ (hf.trans h0)]
    congr 1
    funext r
    exact (forward hr b r).symm

/-- The inverse of an affine matrix is affine, exactly: its last row is `0 … 0 1`; and its linear part is exactly the inverse that the same
function finds for the linear part. -/
theorem C144_inverse {n : ℕ} {M : ℚ} (A X : Mat (Flt P.fmt) (n + 1) (n + 1)) (hA : BoundedMat M A)
    (hl : ∀ c, A c (Fin.last n) = if c = Fin.last n then 1 else 0) (h : invert A = (true, X)) (hX : ∀ c r, (X c r).isFinite) :
    (∀ c, X c (Fin.last n) = if c = Fin.last n then 1 else 0) ∧
    invert (fun c r : Fin n => A c.castSucc r.castSucc) = (true, fun c r => X c.castSucc r.castSucc) := by
  have hs : ∀ c, lupSolve A (vaxis (n + 1) c) = (true, X c) := by
    intro c
    unfold invert at h
    unfold lupSolve
    rcases hd : lupFindDecomposition A with _ | s
    · rw [hd] at h; cases h
    · rw [hd] at h
      simp only [Prod.mk.injEq, true_and] at h ⊢
      exact congrFun h c
  have key := fun c => C144_solve A hA hl _ _ (hs c) (hX c)
  have h1 := (C144_success A hA hl).1
  rw [h] at h1
  refine ⟨fun c => ?_, ?_⟩
  · rw [(key c).1]
    show (if Fin.last n = c then (1 : Flt P.fmt) else 0) = _
    exact if_congr eq_comm rfl rfl
  · have h2 : ∀ c : Fin n, lupSolve (fun c r : Fin n => A c.castSucc r.castSucc) (vaxis n c) = (true, fun r => X c.castSucc r.castSucc) := by
      intro c
      rw [← (key c.castSucc).2 (if_neg (Fin.castSucc_lt_last c).ne')]
      congr 1
      funext r
      show (if r = c then (1 : Flt P.fmt) else 0) = if r.castSucc = c.castSucc then 1 else 0
      exact if_congr Fin.castSucc_inj.symm rfl rfl
    unfold invert at h1 ⊢
    unfold lupSolve at h2
    rcases hd : lupFindDecomposition (fun c r : Fin n => A c.castSucc r.castSucc) with _ | s
    · rw [hd] at h1; cases h1
    · rw [hd] at h2
      simp only [Prod.mk.injEq, true_and] at h2 ⊢
      funext c
      exact h2 c

namespace FltAff

/-- A matrix with last row 0, 0, 0, 1 is given by its linear part and its translation. -/
theorem eq_aff {A : Mat (Flt P.fmt) 4 4} (hl : ∀ c, A c 3 = if c = 3 then 1 else 0) :
    A = FltBM.aff (fun c r => A c.castSucc r.castSucc) (fun r => A 3 r.castSucc) := by
  funext c r
  have := hl c
  fin_cases c <;> fin_cases r <;> first | rfl | exact this

theorem bound4 (hp : 24 ≤ P.p) {M X : ℚ} (hM : 1 ≤ M) (hX : 0 ≤ X) : lupBound P 4 M X ≤ 450 * P.u * M * (1 + X) := by
  have hu0 := P.u_pos
  have hu := FltPts.u24 hp
  have he := FltPts.eta_sq P
  have he0 := P.eta_pos
  have h1 := FltPts.pow_le_quad hu0.le 13 (by push_cast; linarith)
  have h2 := FltPts.pow_le_quad hu0.le 9 (by push_cast; linarith)
  push_cast at h1 h2
  have hsq : P.u ^ 2 ≤ 1 / 2 ^ 24 * P.u := by rw [sq]; exact mul_le_mul_of_nonneg_right hu hu0.le
  have h3 : (1 + P.u) ^ 13 - 1 ≤ 14 * P.u := by linarith
  have h4 : (1 + P.u) ^ 9 ≤ 2 := by linarith
  unfold lupBound
  norm_num only [Nat.cast_ofNat]
  have hMX : 0 ≤ M * X := by positivity
  have k1 : ((1 + P.u) ^ 13 - 1) * (4 * (8 * M)) * X ≤ 14 * P.u * (4 * (8 * M)) * X :=
    mul_le_mul_of_nonneg_right (mul_le_mul_of_nonneg_right h3 (by linarith)) hX
  have k2 : (1 + 8 * M) * (5 + X) ≤ 9 * M * (5 * (1 + X)) := mul_le_mul (by linarith) (by linarith) (by linarith) (by linarith)
  have k3 : 5 * (1 + P.u) ^ 9 * P.eta ≤ 5 * 2 * (P.u ^ 2 / 2) := mul_le_mul (by linarith) he he0.le (by norm_num)
  have k4 : 5 * (1 + P.u) ^ 9 * P.eta ≤ 1 / 45 * P.u := by linarith
  have k5 : 5 * (1 + P.u) ^ 9 * P.eta * ((1 + 8 * M) * (5 + X)) ≤ 1 / 45 * P.u * (9 * M * (5 * (1 + X))) :=
    mul_le_mul k4 k2 (by positivity) (by positivity)
  have k6 : 0 ≤ P.u * M := by positivity
  have k7 : 14 * P.u * (4 * (8 * M)) * X + 1 / 45 * P.u * (9 * M * (5 * (1 + X))) = 448 * (P.u * M * X) + P.u * M * (1 + X) := by ring
  have k8 : 450 * P.u * M * (1 + X) = 450 * (P.u * M) + 450 * (P.u * M * X) := by ring
  have k9 : P.u * M * (1 + X) = P.u * M + P.u * M * X := by ring
  have k10 : 0 ≤ P.u * M * X := by positivity
  linarith

/-- The sum of the magnitudes of the entries. -/
def total (X : Mat (Flt P.fmt) 4 4) : ℚ := ∑ c : Fin 4, ∑ r : Fin 4, |(X c r).val|

/-- The exact arithmetic of going back and forth. -/
theorem residual {a : Fin 4 → ℚ} {X : Fin 4 → Fin 4 → ℚ} {p : Fin 4 → ℚ} {r : Fin 4} {E : Fin 4 → ℚ} {R : ℚ}
    (hE : ∀ j, |(∑ c, a c * X j c) - (if r = j then 1 else 0)| ≤ E j) (hp : ∀ j, |p j| ≤ R) :
    |(∑ c, a c * ∑ j, X j c * p j) - p r| ≤ R * ∑ j, E j := by
  have e : (∑ c, a c * ∑ j, X j c * p j) - p r = ∑ j, ((∑ c, a c * X j c) - (if r = j then 1 else 0)) * p j := by
    simp only [sub_mul, Finset.sum_sub_distrib, ite_mul, one_mul, zero_mul, Finset.sum_ite_eq, Finset.mem_univ, if_true]
    congr 1
    simp only [Finset.mul_sum, Finset.sum_mul]
    rw [Finset.sum_comm]
    refine Finset.sum_congr rfl fun c _ => Finset.sum_congr rfl fun j _ => by ring
  rw [e, Finset.mul_sum]
  refine (Finset.abs_sum_le_sum_abs _ _).trans (Finset.sum_le_sum fun j _ => ?_)
  rw [abs_mul, mul_comm R]
  exact mul_le_mul (hE j) (hp j) (abs_nonneg _) ((abs_nonneg _).trans (hE j))

/-- A computed affine image. -/
theorem image {A : Mat (Flt P.fmt) 4 4} (hp : 24 ≤ P.p) (hl : ∀ c, A c 3 = if c = 3 then 1 else 0) {p : Vec (Flt P.fmt) 3}
    (hpf : ∀ i, (p i).isFinite) {r : Fin 3} (hf : (mmulPoint A p r).isFinite) :
    |(mmulPoint A p r).val - ((A 0 r.castSucc).val * (p 0).val + (A 1 r.castSucc).val * (p 1).val + (A 2 r.castSucc).val * (p 2).val +
      (A 3 r.castSucc).val)| ≤
      5 * P.u * (|(A 0 r.castSucc).val| * |(p 0).val| + |(A 1 r.castSucc).val| * |(p 1).val| + |(A 2 r.castSucc).val| * |(p 2).val| +
        |(A 3 r.castSucc).val|) + P.u := by
  have e : mmulPoint A p r = A 0 r.castSucc * p 0 + A 1 r.castSucc * p 1 + A 2 r.castSucc * p 2 + A 3 r.castSucc := by
    conv_lhs => rw [eq_aff hl]
    exact FltBM.aff_point _ _ p hpf r
  rw [e] at hf ⊢
  have := (FltPts.aff_err hf).trans (FltPts.dotErr4_le hp (by positivity))
  simpa only [abs_mul] using this

/-- The bounds put together. -/
theorem assemble {u M R N s p q0 q1 q2 e0 e1 e2 a0 a1 a2 a3 n0 n1 n2 : ℚ} (hu : 0 ≤ u) (hu1 : u ≤ 1 / 2 ^ 24) (hM : 1 ≤ M) (hR : 1 ≤ R)
    (hN : 1 ≤ N) (hn0 : 0 ≤ n0) (hn1 : 0 ≤ n1) (hn2 : 0 ≤ n2) (hn : n0 + n1 + n2 ≤ N) (ha0 : |a0| ≤ M) (ha1 : |a1| ≤ M) (ha2 : |a2| ≤ M)
    (ha3 : |a3| ≤ M) (he0 : |e0| ≤ R * n0) (he1 : |e1| ≤ R * n1) (he2 : |e2| ≤ R * n2)
    (hq0 : |q0 - e0| ≤ 5 * u * (R * n0) + u) (hq1 : |q1 - e1| ≤ 5 * u * (R * n1) + u) (hq2 : |q2 - e2| ≤ 5 * u * (R * n2) + u)
    (hs : |s - (a0 * q0 + a1 * q1 + a2 * q2 + a3)| ≤ 5 * u * (|a0| * |q0| + |a1| * |q1| + |a2| * |q2| + |a3|) + u)
    (hr : |a0 * e0 + a1 * e1 + a2 * e2 + a3 - p| ≤ 2250 * (u * (M * (R * N)))) :
    |s - p| ≤ 2300 * (u * (M * (R * N))) := by
  have hRN : 1 ≤ R * N := by nlinarith
  have hRn : R * n0 + R * n1 + R * n2 ≤ R * N := by
    have := mul_le_mul_of_nonneg_left hn (by linarith : (0 : ℚ) ≤ R); linarith
  have hMRN : R * N ≤ M * (R * N) := le_mul_of_one_le_left (by linarith) hM
  set Q := R * N
  set m0 := R * n0
  set m1 := R * n1
  set m2 := R * n2
  have p0 : 0 ≤ m0 := by positivity
  have p1 : 0 ≤ m1 := by positivity
  have p2 : 0 ≤ m2 := by positivity
  have small : ∀ {x y m : ℚ}, 0 ≤ m → |y| ≤ m → |x - y| ≤ 5 * u * m + u → |x| ≤ 2 * m + u := by
    intro x y m hm h1 h2
    have h3 := abs_sub_abs_le_abs_sub x y
    have h4 : 5 * u * m ≤ 1 * m := mul_le_mul_of_nonneg_right (by linarith) hm
    linarith
  have b0 := small p0 he0 hq0
  have b1 := small p1 he1 hq1
  have b2 := small p2 he2 hq2
  have prod : ∀ {a x b : ℚ}, |a| ≤ M → |x| ≤ b → |a| * |x| ≤ M * b := fun ha hx =>
    mul_le_mul ha hx (abs_nonneg _) (by linarith)
  have c0 := prod ha0 b0
  have c1 := prod ha1 b1
  have c2 := prod ha2 b2
  have d0 := prod ha0 hq0
  have d1 := prod ha1 hq1
  have d2 := prod ha2 hq2
  have hsum : |a0| * |q0| + |a1| * |q1| + |a2| * |q2| + |a3| ≤ M * (4 * Q) := by
    have : M * (2 * m0 + u) + M * (2 * m1 + u) + M * (2 * m2 + u) + M ≤ M * (4 * Q) := by
      have : M * (2 * m0 + u + (2 * m1 + u) + (2 * m2 + u) + 1) ≤ M * (4 * Q) := mul_le_mul_of_nonneg_left (by linarith) (by linarith)
      linarith
    linarith
  have hs2 := mul_le_mul_of_nonneg_left hsum (by linarith : 0 ≤ 5 * u)
  have huM : u ≤ u * (M * Q) := le_mul_of_one_le_right hu (by linarith)
  have hd : |a0| * |q0 - e0| + |a1| * |q1 - e1| + |a2| * |q2 - e2| ≤ 8 * (u * (M * Q)) := by
    have h1 : M * (5 * u * m0 + u + (5 * u * m1 + u) + (5 * u * m2 + u)) ≤ M * (8 * u * Q) := by
      refine mul_le_mul_of_nonneg_left ?_ (by linarith)
      have h2 := mul_le_mul_of_nonneg_left hRn hu
      have h3 : u ≤ u * Q := le_mul_of_one_le_right hu hRN
      linarith
    linarith
  have hdiff : |a0 * (q0 - e0) + a1 * (q1 - e1) + a2 * (q2 - e2)| ≤ 8 * (u * (M * Q)) := by
    refine ((abs_add_le _ _).trans (add_le_add_left (abs_add_le _ _) _)).trans ?_
    rw [abs_mul, abs_mul, abs_mul]
    exact hd
  have e : s - p = (s - (a0 * q0 + a1 * q1 + a2 * q2 + a3)) + (a0 * (q0 - e0) + a1 * (q1 - e1) + a2 * (q2 - e2)) +
      (a0 * e0 + a1 * e1 + a2 * e2 + a3 - p) := by ring
  rw [e]
  refine ((abs_add_le _ _).trans (add_le_add_left (abs_add_le _ _) _)).trans ?_
  have hpos : 0 ≤ u * (M * Q) := by positivity
  have h20 : 5 * u * (M * (4 * Q)) = 20 * (u * (M * Q)) := by ring
  linarith

/-- The error of a point that is transformed by the inverse and then, with one more error, by the matrix. -/
theorem back (hp : 24 ≤ P.p) {M R : ℚ} (hM : 1 ≤ M) (hR : 1 ≤ R) (A X : Mat (Flt P.fmt) 4 4) (hA : BoundedMat M A)
    (hl : ∀ c, A c 3 = if c = 3 then 1 else 0) (h : invert A = (true, X)) (hX : ∀ c r, (X c r).isFinite)
    (p : Vec (Flt P.fmt) 3) (hpf : ∀ i, (p i).isFinite) (hpR : ∀ i, |(p i).val| ≤ R)
    (hq : ∀ r, (mmulPoint X p r).isFinite) (r : Fin 3) {s : ℚ}
    (hs : |s - ((A 0 r.castSucc).val * (mmulPoint X p 0).val + (A 1 r.castSucc).val * (mmulPoint X p 1).val +
      (A 2 r.castSucc).val * (mmulPoint X p 2).val + (A 3 r.castSucc).val)| ≤
      5 * P.u * (|(A 0 r.castSucc).val| * |(mmulPoint X p 0).val| + |(A 1 r.castSucc).val| * |(mmulPoint X p 1).val| +
        |(A 2 r.castSucc).val| * |(mmulPoint X p 2).val| + |(A 3 r.castSucc).val|) + P.u) :
    |s - (p r).val| ≤ 2300 * (P.u * (M * (R * ∑ c : Fin 4, ∑ r : Fin 4, |(X c r).val|))) := by
  have hXl := (C144_inverse A X hA hl h hX).1
  have hX33 : X 3 3 = 1 := (hXl 3).trans (if_pos rfl)
  have hXc3 : ∀ c : Fin 3, X c.castSucc 3 = 0 := by
    intro c
    have := hXl c.castSucc
    rwa [if_neg (Fin.castSucc_lt_last c).ne] at this
  have hu0 := P.u_pos
  have hu := FltPts.u24 hp
  set N : ℚ := ∑ c : Fin 4, ∑ r : Fin 4, |(X c r).val| with hN
  have hNr : N = (∑ c, |(X c 0).val|) + (∑ c, |(X c 1).val|) + (∑ c, |(X c 2).val|) + (∑ c, |(X c 3).val|) := by
    rw [hN, Finset.sum_comm, Fin.sum_univ_four]
  have hsum0 : ∀ r, 0 ≤ ∑ c, |(X c r).val| := fun r => Finset.sum_nonneg fun c _ => abs_nonneg _
  have h3 : 1 ≤ ∑ c, |(X c 3).val| := by
    have := Finset.single_le_sum (f := fun c => |(X c 3).val|) (fun c _ => abs_nonneg _) (Finset.mem_univ 3)
    simp only [hX33, Flt.one_val, abs_one] at this
    exact this
  -- the exact image of the point under the inverse
  set e : Fin 3 → ℚ := fun r => (X 0 r.castSucc).val * (p 0).val + (X 1 r.castSucc).val * (p 1).val + (X 2 r.castSucc).val * (p 2).val +
      (X 3 r.castSucc).val with he
  have habs : ∀ r : Fin 3, |(X 0 r.castSucc).val| * |(p 0).val| + |(X 1 r.castSucc).val| * |(p 1).val| + |(X 2 r.castSucc).val| * |(p 2).val| +
      |(X 3 r.castSucc).val| ≤ R * ∑ c, |(X c r.castSucc).val| := by
    intro r
    rw [Fin.sum_univ_four]
    have hm : ∀ c : Fin 3, |(X c.castSucc r.castSucc).val| * |(p c).val| ≤ |(X c.castSucc r.castSucc).val| * R := fun c =>
      mul_le_mul_of_nonneg_left (hpR c) (abs_nonneg _)
    have h0 := hm 0
    have h1 := hm 1
    have h2 := hm 2
    have h3 : |(X 3 r.castSucc).val| ≤ R * |(X 3 r.castSucc).val| := le_mul_of_one_le_left (abs_nonneg _) hR
    have e0 : X (Fin.castSucc (0 : Fin 3)) = X 0 := rfl
    have e1 : X (Fin.castSucc (1 : Fin 3)) = X 1 := rfl
    have e2 : X (Fin.castSucc (2 : Fin 3)) = X 2 := rfl
    rw [e0] at h0
    rw [e1] at h1
    rw [e2] at h2
    linarith
  have hee : ∀ r, |e r| ≤ R * ∑ c, |(X c r.castSucc).val| := by
    intro r
    refine le_trans ?_ (habs r)
    refine ((abs_add_le _ _).trans (add_le_add_left ((abs_add_le _ _).trans (add_le_add_left (abs_add_le _ _) _)) _)).trans (le_of_eq ?_)
    rw [abs_mul, abs_mul, abs_mul]
  have hqe : ∀ r, |(mmulPoint X p r).val - e r| ≤ 5 * P.u * (R * ∑ c, |(X c r.castSucc).val|) + P.u := by
    intro r
    refine (FltAff.image hp hXl hpf (hq r)).trans ?_
    have := mul_le_mul_of_nonneg_left (habs r) (by linarith : 0 ≤ 5 * P.u)
    linarith
  -- the residual of the inverse
  have hres := residual (a := fun c => (A c r.castSucc).val) (X := fun j c => (X j c).val) (p := Fin.snoc (fun i => (p i).val) 1)
    (r := r.castSucc) (E := fun j => 450 * P.u * M * (1 + ∑ c, |(X j c).val|)) (R := R)
    (fun j => (C112_invert_residual P A X hA h hX j r.castSucc).trans
      (bound4 hp hM (Finset.sum_nonneg fun c _ => abs_nonneg _)))
    (fun j => by
      induction j using Fin.lastCases with
      | last => rw [Fin.snoc_last, abs_one]; exact hR
      | cast j => rw [Fin.snoc_castSucc]; exact hpR j)
  have hN1 : 1 ≤ N := by have h0 := hsum0 0; have h1 := hsum0 1; have h2 := hsum0 2; linarith
  refine assemble (q0 := (mmulPoint X p 0).val) (q1 := (mmulPoint X p 1).val) (q2 := (mmulPoint X p 2).val) (e0 := e 0) (e1 := e 1) (e2 := e 2)
    hu0.le hu hM hR hN1 (hsum0 0) (hsum0 1) (hsum0 2) (by linarith) (hA.le 0 r.castSucc) (hA.le 1 r.castSucc) (hA.le 2 r.castSucc)
    (hA.le 3 r.castSucc) (hee 0) (hee 1) (hee 2) (hqe 0) (hqe 1) (hqe 2) hs ?_
  have esum : (∑ j : Fin 4, 450 * P.u * M * (1 + ∑ c, |(X j c).val|)) = 450 * (P.u * M) * (4 + N) := by
    rw [← Finset.mul_sum, Finset.sum_add_distrib]
    simp only [Finset.sum_const, Finset.card_univ, Fintype.card_fin, nsmul_eq_mul]
    rw [← hN]
    push_cast
    ring
  rw [esum] at hres
  have hlast : (∑ j : Fin 4, (X j 3).val * (Fin.snoc (fun i => (p i).val) (1 : ℚ) : Fin 4 → ℚ) j) = 1 := by
    rw [Fin.sum_univ_castSucc]
    have : ∀ j : Fin 3, (X j.castSucc 3).val * (Fin.snoc (fun i => (p i).val) (1 : ℚ) : Fin 4 → ℚ) j.castSucc = 0 := fun j => by
      rw [hXc3, Flt.zero_val, zero_mul]
    rw [Finset.sum_eq_zero fun j _ => this j, Fin.snoc_last, zero_add]
    show (X 3 3).val * 1 = 1
    rw [hX33, Flt.one_val, mul_one]
  have hrow : ∀ r : Fin 3, (∑ j : Fin 4, (X j r.castSucc).val * (Fin.snoc (fun i => (p i).val) (1 : ℚ) : Fin 4 → ℚ) j) = e r := by
    intro r
    rw [Fin.sum_univ_castSucc, Fin.sum_univ_three, Fin.snoc_last, mul_one]
    simp only [Fin.snoc_castSucc]
    rfl
  rw [Fin.sum_univ_castSucc, Fin.sum_univ_three, Fin.snoc_castSucc] at hres
  have hl3 : (∑ j : Fin 4, (X j (Fin.last 3)).val * (Fin.snoc (fun i => (p i).val) (1 : ℚ) : Fin 4 → ℚ) j) = 1 := hlast
  rw [hrow, hrow, hrow, hl3, mul_one] at hres
  refine hres.trans ?_
  have h5 : 4 + N ≤ 5 * N := by linarith
  have h6 : 0 ≤ R * (450 * (P.u * M)) := by positivity
  have h7 := mul_le_mul_of_nonneg_left h5 h6
  linarith

/-- The matrix that `coordinate_system_matrix` inverts. -/
theorem frame_entry (x y z o : Vec (Flt P.fmt) 3) (c : Fin 4) (r : Fin 3) :
    (matOfRowMajor 4 4 ![x 0, y 0, z 0, o 0, x 1, y 1, z 1, o 1, x 2, y 2, z 2, o 2, 0, 0, 0, 1] : Mat (Flt P.fmt) 4 4) c r.castSucc =
      (![x, y, z, o] : Fin 4 → Vec (Flt P.fmt) 3) c r := by
  fin_cases c <;> fin_cases r <;> rfl

theorem frame_last (x y z o : Vec (Flt P.fmt) 3) (c : Fin 4) :
    (matOfRowMajor 4 4 ![x 0, y 0, z 0, o 0, x 1, y 1, z 1, o 1, x 2, y 2, z 2, o 2, 0, 0, 0, 1] : Mat (Flt P.fmt) 4 4) c 3 =
      if c = 3 then 1 else 0 := by
  fin_cases c <;> rfl

theorem frame_bounded {M : ℚ} (hM : P.Rep M) (h1 : 1 ≤ M) (room : 8 * M < P.bound) {x y z o : Vec (Flt P.fmt) 3}
    (hf : ∀ c r, ((![x, y, z, o] : Fin 4 → Vec (Flt P.fmt) 3) c r).isFinite)
    (hb : ∀ c r, |((![x, y, z, o] : Fin 4 → Vec (Flt P.fmt) 3) c r).val| ≤ M) :
    BoundedMat M (matOfRowMajor 4 4 ![x 0, y 0, z 0, o 0, x 1, y 1, z 1, o 1, x 2, y 2, z 2, o 2, 0, 0, 0, 1] : Mat (Flt P.fmt) 4 4) := by
  refine ⟨hM, by norm_num only; exact room, fun c r => ?_, fun c r => ?_⟩
  · induction r using Fin.lastCases with
    | last =>
      rw [show Fin.last 3 = 3 from rfl, frame_last]
      split_ifs
      · exact Flt.one_finite
      · exact Flt.zero_finite
    | cast r => rw [frame_entry]; exact hf c r
  · induction r using Fin.lastCases with
    | last =>
      rw [show Fin.last 3 = 3 from rfl, frame_last]
      split_ifs
      · rw [Flt.one_val, abs_one]; exact h1
      · rw [Flt.zero_val, abs_zero]; linarith
    | cast r => rw [frame_entry]; exact hb c r

theorem frame_some {x y z o : Vec (Flt P.fmt) 3} {m : Mat (Flt P.fmt) 4 4} (h : coordinateSystemMatrixG x y z o = some m) :
    invert (matOfRowMajor 4 4 ![x 0, y 0, z 0, o 0, x 1, y 1, z 1, o 1, x 2, y 2, z 2, o 2, 0, 0, 0, 1] : Mat (Flt P.fmt) 4 4) = (true, m) := by
  unfold coordinateSystemMatrixG at h
  simp only at h
  split at h
  · rename_i h1
    exact Prod.ext h1 (Option.some.inj h)
  · cases h

end FltAff

/-- A point, transformed by the computed inverse of an affine matrix and then by the matrix, is where it was, up to 2300 rounding units of
the product of the largest entry of the matrix, the largest coordinate of the point and the sum of the magnitudes of the entries of the
inverse. -/
theorem C144_back_and_forth (hp : 24 ≤ P.p) {M R : ℚ} (hM : 1 ≤ M) (hR : 1 ≤ R) (A X : Mat (Flt P.fmt) 4 4) (hA : BoundedMat M A)
    (hl : ∀ c, A c 3 = if c = 3 then 1 else 0) (h : invert A = (true, X)) (hX : ∀ c r, (X c r).isFinite)
    (p : Vec (Flt P.fmt) 3) (hpf : ∀ i, (p i).isFinite) (hpR : ∀ i, |(p i).val| ≤ R)
    (hq : ∀ r, (mmulPoint X p r).isFinite) (r : Fin 3) (hs : (mmulPoint A (mmulPoint X p) r).isFinite) :
    |(mmulPoint A (mmulPoint X p) r).val - (p r).val| ≤ 2300 * (P.u * (M * (R * ∑ c : Fin 4, ∑ r : Fin 4, |(X c r).val|))) := by
  exact back hp hM hR A X hA hl h hX p hpf hpR hq r (FltAff.image hp hl hq hs)

/-- In exact arithmetic this function is the one that C50 is about. -/
theorem C144_model {K : Type*} [Field K] [LinearOrder K] (x y z o : Vec K 3) :
    coordinateSystemMatrixG x y z o = coordinateSystemMatrix x y z o := rfl

/-- The matrix of a coordinate system has the last row 0, 0, 0, 1, exactly, and it gives a point coordinates that describe the point: the
origin plus the multiples of the axes is the point, up to 2300 rounding units of the product of the largest coordinate of the axes and the
origin, the largest coordinate of the point and the sum of the magnitudes of the entries of the matrix. -/
theorem C144_coordinates (hp : 24 ≤ P.p) {M R : ℚ} (hMr : P.Rep M) (hM : 1 ≤ M) (room : 8 * M < P.bound) (hR : 1 ≤ R) (x y z o : Vec (Flt P.fmt) 3)
    (hf : ∀ r, (x r).isFinite ∧ (y r).isFinite ∧ (z r).isFinite ∧ (o r).isFinite)
    (hb : ∀ r, |(x r).val| ≤ M ∧ |(y r).val| ≤ M ∧ |(z r).val| ≤ M ∧ |(o r).val| ≤ M)
    (m : Mat (Flt P.fmt) 4 4) (h : coordinateSystemMatrixG x y z o = some m) (hm : ∀ c r, (m c r).isFinite) :
    (∀ c, m c 3 = if c = 3 then 1 else 0) ∧
    ∀ (p : Vec (Flt P.fmt) 3), (∀ i, (p i).isFinite) → (∀ i, |(p i).val| ≤ R) → (∀ r, (mmulPoint m p r).isFinite) → ∀ r,
      |(o r).val + (mmulPoint m p 0).val * (x r).val + (mmulPoint m p 1).val * (y r).val + (mmulPoint m p 2).val * (z r).val - (p r).val| ≤
        2300 * (P.u * (M * (R * ∑ c : Fin 4, ∑ r : Fin 4, |(m c r).val|))) := by
  have hB := frame_bounded (x := x) (y := y) (z := z) (o := o) hMr hM room
    (fun c r => by fin_cases c; exacts [(hf r).1, (hf r).2.1, (hf r).2.2.1, (hf r).2.2.2])
    (fun c r => by fin_cases c; exacts [(hb r).1, (hb r).2.1, (hb r).2.2.1, (hb r).2.2.2])
  refine ⟨(C144_inverse _ m hB (frame_last x y z o) (frame_some h) hm).1, fun p hpf hpR hq r => ?_⟩
  refine back hp hM hR _ m hB (frame_last x y z o) (frame_some h) hm p hpf hpR hq r ?_
  simp only [frame_entry]
  show |(o r).val + (mmulPoint m p 0).val * (x r).val + (mmulPoint m p 1).val * (y r).val + (mmulPoint m p 2).val * (z r).val -
    ((x r).val * (mmulPoint m p 0).val + (y r).val * (mmulPoint m p 1).val + (z r).val * (mmulPoint m p 2).val + (o r).val)| ≤
    5 * P.u * (|(x r).val| * |(mmulPoint m p 0).val| + |(y r).val| * |(mmulPoint m p 1).val| + |(z r).val| * |(mmulPoint m p 2).val| +
      |(o r).val|) + P.u
  have e : (o r).val + (mmulPoint m p 0).val * (x r).val + (mmulPoint m p 1).val * (y r).val + (mmulPoint m p 2).val * (z r).val -
    ((x r).val * (mmulPoint m p 0).val + (y r).val * (mmulPoint m p 1).val + (z r).val * (mmulPoint m p 2).val + (o r).val) = 0 := by ring
  rw [e, abs_zero]
  have := P.u_pos
  positivity

namespace FltAff

/-- A permutation of the first indices. -/
def extend {n : ℕ} (ρ : Equiv.Perm (Fin n)) : Equiv.Perm (Fin (n + 1)) :=
  (finSuccEquivLast.trans (Equiv.optionCongr ρ)).trans finSuccEquivLast.symm

theorem extend_castSucc {n : ℕ} (ρ : Equiv.Perm (Fin n)) (i : Fin n) : extend ρ i.castSucc = (ρ i).castSucc := by
  simp [extend]

theorem extend_last {n : ℕ} (ρ : Equiv.Perm (Fin n)) : extend ρ (Fin.last n) = Fin.last n := by
  simp [extend]

theorem extend_symm_castSucc {n : ℕ} (ρ : Equiv.Perm (Fin n)) (i : Fin n) : (extend ρ).symm i.castSucc = (ρ.symm i).castSucc := by
  rw [Equiv.symm_apply_eq, extend_castSucc, Equiv.apply_symm_apply]

theorem extend_symm_last {n : ℕ} (ρ : Equiv.Perm (Fin n)) : (extend ρ).symm (Fin.last n) = Fin.last n := by
  rw [Equiv.symm_apply_eq, extend_last]

/-- A diagonal matrix with a translation. -/
def diagAff {n : ℕ} (d t : Vec (Flt P.fmt) n) : Mat (Flt P.fmt) (n + 1) (n + 1) :=
  fun c => Fin.lastCases (motive := fun _ => Vec (Flt P.fmt) (n + 1)) (Fin.snoc t 1) (fun c r => if r = c.castSucc then d c else 0) c

theorem diagAff_cast {n : ℕ} (d t : Vec (Flt P.fmt) n) (c : Fin n) (r : Fin (n + 1)) :
    diagAff d t c.castSucc r = if r = c.castSucc then d c else 0 := by
  simp [diagAff]

theorem diagAff_last {n : ℕ} (d t : Vec (Flt P.fmt) n) (r : Fin n) : diagAff d t (Fin.last n) r.castSucc = t r := by
  simp [diagAff]

theorem diagAff_corner {n : ℕ} (d t : Vec (Flt P.fmt) n) : diagAff d t (Fin.last n) (Fin.last n) = 1 := by
  simp [diagAff]

theorem diagAff_backward {n : ℕ} (d t : Vec (Flt P.fmt) n) (y : Vec (Flt P.fmt) (n + 1))
    (hy : ∀ i : Fin n, ((y i.castSucc - t i * y (Fin.last n)) / d i).isFinite) :
    lupBackward (diagAff d t) y (Fin.last n) = y (Fin.last n) ∧
    ∀ i : Fin n, lupBackward (diagAff d t) y i.castSucc = (y i.castSucc - t i * y (Fin.last n)) / d i := by
  have hlast : lupBackward (diagAff d t) y (Fin.last n) = y (Fin.last n) := by
    rw [lupBackward_eq, foldl_zero_terms, Flt.sub_zero', diagAff_corner, Flt.div_one']
    intro j hj
    have hj : Fin.last n < j := by simpa using hj
    exact absurd hj (not_lt.2 (Fin.le_last j))
  refine ⟨hlast, ?_⟩
  have : ∀ (m : ℕ) (i : Fin n), n ≤ i.val + m → lupBackward (diagAff d t) y i.castSucc = (y i.castSucc - t i * y (Fin.last n)) / d i := by
    intro m
    induction m with
    | zero => intro i hi; omega
    | succ m ih =>
      intro i hi
      rw [lupBackward_eq, foldl_single_term (fun j => diagAff d t j i.castSucc * lupBackward (diagAff d t) y j) (Fin.last n)
        _ ((List.nodup_finRange _).filter _) (by simp [Fin.castSucc_lt_last]), diagAff_cast, if_pos rfl, diagAff_last, hlast]
      intro j hj hjl
      have hj : i.castSucc < j := by simpa using hj
      induction j using Fin.lastCases with
      | last => exact absurd rfl hjl
      | cast j =>
        have hij : i.val < j.val := hj
        rw [diagAff_cast, if_neg hj.ne, ih j (by omega), Flt.zero_mul_fin (hy j)]
  exact fun i => this n i (by omega)

/-- The inverse of a monomial linear part with a translation. -/
theorem monomial_affine {n : ℕ} (ρ : Equiv.Perm (Fin n)) (d t : Vec (Flt P.fmt) n) (A : Mat (Flt P.fmt) (n + 1) (n + 1))
    (hA : ∀ c r : Fin n, A c.castSucc r.castSucc = if r = ρ c then d c else 0) (ht : ∀ r : Fin n, A (Fin.last n) r.castSucc = t r)
    (hl : ∀ c, A c (Fin.last n) = if c = Fin.last n then 1 else 0)
    (hd : ∀ c, (d c).isFinite) (htf : ∀ c, (t c).isFinite) (hlim : ∀ c, lupLimit ≤ |(d c).val|)
    (hq : ∀ c, (1 / d c).isFinite) (hqt : ∀ c, (-t (ρ c) / d c).isFinite) :
    invert A = (true, fun c => Fin.lastCases (motive := fun _ => Vec (Flt P.fmt) (n + 1)) (Fin.snoc (fun r => -t (ρ r) / d r) 1)
      (fun c => Fin.snoc (fun r => if c = ρ r then 1 / d r else 0) 0) c) := by
  have hz : ∀ c, 0 / d c = 0 := fun c => zero_div_flt (hd c) (finite_ne_zero (hlim c))
  have ne : ∀ c : Fin n, c.castSucc ≠ Fin.last n := fun c => (Fin.castSucc_lt_last c).ne
  rw [upper_invert (u := diagAff d fun r => t (ρ r)) (A := A) ?_ ?_ (extend ρ.symm) ?_ ?_]
  · congr 1
    funext c
    induction c using Fin.lastCases with
    | last =>
      have e : ∀ i : Fin n, (vaxis (n + 1) (Fin.last n) : Vec (Flt P.fmt) (n + 1)) ((extend ρ.symm).symm i.castSucc) -
          t (ρ i) * (vaxis (n + 1) (Fin.last n) : Vec (Flt P.fmt) (n + 1)) ((extend ρ.symm).symm (Fin.last n)) = -t (ρ i) := by
        intro i
        rw [extend_symm_castSucc, extend_symm_last]
        unfold vaxis
        rw [if_neg (ne _), if_pos rfl, Flt.mul_one', Flt.zero_sub']
      have h := diagAff_backward d (fun r => t (ρ r)) (fun j => vaxis (n + 1) (Fin.last n) ((extend ρ.symm).symm j))
        (fun i => by rw [e]; exact hqt i)
      funext r
      rw [Fin.lastCases_last]
      induction r using Fin.lastCases with
      | last => rw [h.1, extend_symm_last, Fin.snoc_last, vaxis, if_pos rfl]
      | cast r => rw [h.2, e, Fin.snoc_castSucc]
    | cast c =>
      have e : ∀ i : Fin n, (vaxis (n + 1) c.castSucc : Vec (Flt P.fmt) (n + 1)) ((extend ρ.symm).symm i.castSucc) -
          t (ρ i) * (vaxis (n + 1) c.castSucc : Vec (Flt P.fmt) (n + 1)) ((extend ρ.symm).symm (Fin.last n)) = if c = ρ i then 1 else 0 := by
        intro i
        rw [extend_symm_castSucc, extend_symm_last]
        have : (vaxis (n + 1) c.castSucc : Vec (Flt P.fmt) (n + 1)) (Fin.last n) = 0 := if_neg (ne c).symm
        rw [this, Flt.mul_zero_fin (htf _), Flt.sub_zero', vaxis]
        refine if_congr ?_ rfl rfl
        rw [Fin.castSucc_inj, Equiv.symm_symm]
        exact eq_comm
      have e2 : ∀ i : Fin n, (if c = ρ i then (1 : Flt P.fmt) else 0) / d i = if c = ρ i then 1 / d i else 0 := by
        intro i
        split_ifs
        · rfl
        · exact hz i
      have h := diagAff_backward d (fun r => t (ρ r)) (fun j => vaxis (n + 1) c.castSucc ((extend ρ.symm).symm j))
        (fun i => by
          rw [e, e2]
          split_ifs
          · exact hq i
          · exact Flt.zero_finite)
      funext r
      rw [Fin.lastCases_castSucc]
      induction r using Fin.lastCases with
      | last => rw [h.1, extend_symm_last, Fin.snoc_last, vaxis, if_neg (ne c).symm]
      | cast r => rw [h.2, e, e2, Fin.snoc_castSucc]
  · intro c r
    induction c using Fin.lastCases with
    | last =>
      induction r using Fin.lastCases with
      | last => rw [diagAff_corner]; exact Flt.one_finite
      | cast r => rw [diagAff_last]; exact htf _
    | cast c =>
      rw [diagAff_cast]
      split_ifs
      · exact hd c
      · exact Flt.zero_finite
  · intro c i hci
    induction c using Fin.lastCases with
    | last => exact absurd hci (not_lt.2 (Fin.le_last i))
    | cast c => rw [diagAff_cast, if_neg hci.ne']
  · intro c r
    induction r using Fin.lastCases with
    | last =>
      rw [hl, extend_last]
      induction c using Fin.lastCases with
      | last => rw [diagAff_corner, if_pos rfl]
      | cast c => rw [diagAff_cast, if_neg (ne c), if_neg (ne c).symm]
    | cast r =>
      rw [extend_castSucc]
      induction c using Fin.lastCases with
      | last => rw [diagAff_last, ht, Equiv.apply_symm_apply]
      | cast c =>
        rw [diagAff_cast, hA]
        refine if_congr ?_ rfl rfl
        rw [Fin.castSucc_inj, Equiv.symm_apply_eq]
  · intro k
    induction k using Fin.lastCases with
    | last => rw [diagAff_corner, Flt.one_val, abs_one]; exact lupLimit_le_one
    | cast k => rw [diagAff_cast, if_pos rfl]; exact hlim k

end FltAff

/-- Axes along the coordinate axes, in any order and with any lengths and signs: axis number `c` of the system has the length `d c` and is
along coordinate axis `ρ c`.  The matrix exists, and its entries are correctly rounded: the reciprocals of the lengths and the coordinates
of the origin divided by them. -/
theorem C144_axes (ρ : Equiv.Perm (Fin 3)) (d o : Vec (Flt P.fmt) 3) (a : Fin 3 → Vec (Flt P.fmt) 3)
    (ha : ∀ c r, a c r = if r = ρ c then d c else 0) (hd : ∀ c, (d c).isFinite) (ho : ∀ c, (o c).isFinite)
    (hlim : ∀ c, lupLimit ≤ |(d c).val|) (hq : ∀ c, (1 / d c).isFinite) (hqo : ∀ c, (-o (ρ c) / d c).isFinite) :
    ∃ m, coordinateSystemMatrixG (a 0) (a 1) (a 2) o = some m ∧
      (∀ c r : Fin 3, m c.castSucc r.castSucc = if c = ρ r then 1 / d r else 0) ∧ (∀ r : Fin 3, m 3 r.castSucc = -o (ρ r) / d r) ∧
      ∀ c, m c 3 = if c = 3 then 1 else 0 := by
  have h := monomial_affine ρ d o (matOfRowMajor 4 4 ![a 0 0, a 1 0, a 2 0, o 0, a 0 1, a 1 1, a 2 1, o 1, a 0 2, a 1 2, a 2 2, o 2, 0, 0, 0, 1])
    (fun c r => by rw [frame_entry, ← ha]; fin_cases c <;> rfl) (fun r => by rw [show Fin.last 3 = 3 from rfl, frame_entry]; rfl)
    (frame_last _ _ _ _) hd ho hlim hq hqo
  refine ⟨_, by unfold coordinateSystemMatrixG; simp only [h]; rfl, fun c r => ?_, fun r => ?_, fun c => ?_⟩
  · rw [Fin.lastCases_castSucc, Fin.snoc_castSucc]
  · rw [show (3 : Fin 4) = Fin.last 3 from rfl, Fin.lastCases_last, Fin.snoc_castSucc]
  · rw [show (3 : Fin 4) = Fin.last 3 from rfl]
    induction c using Fin.lastCases with
    | last => rw [Fin.lastCases_last, Fin.snoc_last, if_pos rfl]
    | cast c => rw [Fin.lastCases_castSucc, Fin.snoc_last, if_neg (Fin.castSucc_lt_last c).ne]

namespace FltAff

theorem div_unit_finite {x d : Flt P.fmt} (hx : x.isFinite) (hd : d = 1 ∨ d = -1) : (x / d).isFinite := by
  rcases hd with rfl | rfl
  · rw [Flt.div_one']; exact hx
  · have hf : (-(1 : Flt P.fmt)).isFinite := Flt.neg_finite.2 Flt.one_finite
    rw [fin_div_fin hx hf (by rw [Flt.neg_val, Flt.one_val]; norm_num), Flt.neg_val, Flt.one_val]
    have : x.val / -1 = (-x).val := by rw [Flt.neg_val]; ring
    rw [this, round_self (Flt.neg_finite.2 hx)]
    exact Flt.neg_finite.2 hx

/-- A quarter turn about the z axis with an offset. -/
def exAxes : Fin 3 → Vec (Flt binary64.fmt) 3 := fun c r => if r = Equiv.swap (0 : Fin 3) 1 c then (![1, -1, 1] : Vec (Flt binary64.fmt) 3) c else 0

def exOrigin : Vec (Flt binary64.fmt) 3 := ![dbl 3 0, dbl 1 1, dbl (-1) (-3)]

theorem exUnit (c : Fin 3) : (![1, -1, 1] : Vec (Flt binary64.fmt) 3) c = 1 ∨ (![1, -1, 1] : Vec (Flt binary64.fmt) 3) c = -1 := by
  fin_cases c
  · exact Or.inl rfl
  · exact Or.inr rfl
  · exact Or.inl rfl

theorem exOrigin_ok (c : Fin 3) : (exOrigin c).isFinite ∧ |(exOrigin c).val| ≤ 4 := by
  fin_cases c
  · exact ⟨trivial, by show |(dbl 3 0).val| ≤ 4; rw [dbl_val]; norm_num [abs_of_pos]⟩
  · exact ⟨trivial, by show |(dbl 1 1).val| ≤ 4; rw [dbl_val]; norm_num [abs_of_pos]⟩
  · refine ⟨trivial, ?_⟩
    show |(dbl (-1) (-3)).val| ≤ 4
    rw [dbl_val, abs_le]
    constructor <;> norm_num

theorem exAxes_ok (c r : Fin 3) : (exAxes c r).isFinite ∧ |(exAxes c r).val| ≤ 4 := by
  unfold exAxes
  split_ifs
  · rcases exUnit c with h | h <;> rw [h]
    · exact ⟨Flt.one_finite, by rw [Flt.one_val]; norm_num⟩
    · exact ⟨Flt.neg_finite.2 Flt.one_finite, by rw [Flt.neg_val, Flt.one_val]; norm_num⟩
  · exact ⟨Flt.zero_finite, by rw [Flt.zero_val]; norm_num⟩

/-- The hypotheses of the theorems hold for a quarter turn with an offset. -/
theorem ex_frame : ∃ m, coordinateSystemMatrixG (exAxes 0) (exAxes 1) (exAxes 2) exOrigin = some m ∧ ∀ c r, (m c r).isFinite := by
  have u := fun c => one_div_unit (exUnit c)
  obtain ⟨m, h1, h2, h3, h4⟩ := C144_axes (Equiv.swap (0 : Fin 3) 1) (![1, -1, 1] : Vec (Flt binary64.fmt) 3) exOrigin exAxes (fun _ _ => rfl)
    (fun c => (u c).1) (fun c => (exOrigin_ok c).1) (fun c => (u c).2.1) (fun c => by rw [(u c).2.2]; exact (u c).1)
    (fun c => div_unit_finite (Flt.neg_finite.2 (exOrigin_ok _).1) (exUnit c))
  refine ⟨m, h1, fun c r => ?_⟩
  induction r using Fin.lastCases with
  | last =>
    rw [show Fin.last 3 = (3 : Fin 4) from rfl, h4]
    split_ifs
    · exact Flt.one_finite
    · exact Flt.zero_finite
  | cast r =>
    induction c using Fin.lastCases with
    | last => exact Eq.subst (motive := Flt.isFinite) (h3 r).symm (div_unit_finite (Flt.neg_finite.2 (exOrigin_ok _).1) (exUnit r))
    | cast c =>
      rw [h2]
      split_ifs
      · rw [(u r).2.2]; exact (u r).1
      · exact Flt.zero_finite

theorem ex_room : 8 * 4 < binary64.bound := by
  have : (2 : ℚ) ^ (6 : ℤ) ≤ binary64.bound := zpow_le_zpow_right₀ (by norm_num) (by norm_num [binary64])
  have h : (2 : ℚ) ^ (6 : ℤ) = 64 := by norm_num
  linarith

end FltAff

example : (∀ r, (exAxes 0 r).isFinite ∧ (exAxes 1 r).isFinite ∧ (exAxes 2 r).isFinite ∧ (exOrigin r).isFinite) ∧
    (∀ r, |(exAxes 0 r).val| ≤ 4 ∧ |(exAxes 1 r).val| ≤ 4 ∧ |(exAxes 2 r).val| ≤ 4 ∧ |(exOrigin r).val| ≤ 4) ∧
    binary64.Rep 4 ∧ 8 * 4 < binary64.bound ∧
    ∃ m, coordinateSystemMatrixG (exAxes 0) (exAxes 1) (exAxes 2) exOrigin = some m ∧ ∀ c r, (m c r).isFinite := by
  refine ⟨fun r => ⟨(exAxes_ok 0 r).1, (exAxes_ok 1 r).1, (exAxes_ok 2 r).1, (exOrigin_ok r).1⟩,
    fun r => ⟨(exAxes_ok 0 r).2, (exAxes_ok 1 r).2, (exAxes_ok 2 r).2, (exOrigin_ok r).2⟩, ?_, ?_, ex_frame⟩
  · have := binary64.rep_int (n := 4) (by norm_num [binary64])
    exact_mod_cast this
  · exact ex_room

/-- The matrix that is inverted for it meets the hypotheses of `C144_success`, `C144_solve`, `C144_inverse` and `C144_back_and_forth`. -/
example : ∃ A X : Mat (Flt binary64.fmt) 4 4, BoundedMat 4 A ∧ (∀ c, A c (Fin.last 3) = if c = Fin.last 3 then 1 else 0) ∧
    invert A = (true, X) ∧ (∀ c r, (X c r).isFinite) ∧ A 0 1 = 1 ∧ A 3 0 = dbl 3 0 := by
  obtain ⟨m, h1, h2⟩ := ex_frame
  refine ⟨_, m, frame_bounded ?_ (by norm_num) ?_ (fun c r => ?_) (fun c r => ?_), frame_last _ _ _ _, frame_some h1, h2, ?_, rfl⟩
  · have := binary64.rep_int (n := 4) (by norm_num [binary64])
    exact_mod_cast this
  · exact ex_room
  · fin_cases c
    exacts [(exAxes_ok 0 r).1, (exAxes_ok 1 r).1, (exAxes_ok 2 r).1, (exOrigin_ok r).1]
  · fin_cases c
    exacts [(exAxes_ok 0 r).2, (exAxes_ok 1 r).2, (exAxes_ok 2 r).2, (exOrigin_ok r).2]
  · show exAxes 0 1 = 1
    unfold exAxes
    rw [if_pos (by decide)]
    rfl

end vm
