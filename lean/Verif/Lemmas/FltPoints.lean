import Verif.Model.PointsG
import Verif.Props.FltLup
import Verif.Lemmas.FltBoxMat

/-! Lemmas about `points_transformation_matrix` in IEEE arithmetic. -/

set_option linter.unusedSectionVars false
set_option linter.unusedSimpArgs false

namespace vm
open BinPar

namespace FltPts
variable {P : BinPar}

/-- The linear part made of the nine unknowns. -/
def lin {T : Type*} (X : Vec T 9) (c r : Fin 3) : T := X ⟨3 * r.val + c.val, by omega⟩

theorem result_eq (X : Vec (Flt P.fmt) 9) (i0 o0 : Vec (Flt P.fmt) 3) :
    pointsResult X i0 o0 = mmul (mmul (translationMatrix o0) (FltBM.aff (lin X) 0)) (translationMatrix (-i0)) := by
  unfold pointsResult
  congr 2
  funext c r
  fin_cases c <;> fin_cases r <;> rfl

/-- All unknowns are finite if the entries of the result are. -/
theorem lin_finite {X : Vec (Flt P.fmt) 9} {i0 o0 : Vec (Flt P.fmt) 3}
    (h : ∀ c r, (pointsResult X i0 o0 c r).isFinite) (c r : Fin 3) : (lin X c r).isFinite := by
  have h1 := fun k => (dot_finite_terms (fun k => mmul (translationMatrix o0) (FltBM.aff (lin X) 0) k r.castSucc)
    (translationMatrix (-i0) 0) (by rw [result_eq] at h; exact h 0 r.castSucc) k).1
  have h2 := (dot_finite_terms (fun k => translationMatrix o0 k r.castSucc) (FltBM.aff (lin X) 0 c.castSucc) (h1 c.castSucc) r.castSucc).2
  have e : FltBM.aff (lin X) 0 c.castSucc r.castSucc = lin X c r := by
    fin_cases c <;> fin_cases r <;> rfl
  rwa [e] at h2

theorem X_finite {X : Vec (Flt P.fmt) 9} (h : ∀ c r, (lin X c r).isFinite) (j : Fin 9) : (X j).isFinite := by
  have := h ⟨j.val % 3, by omega⟩ ⟨j.val / 3, by omega⟩
  unfold lin at this
  have e : (⟨3 * (j.val / 3) + j.val % 3, by omega⟩ : Fin 9) = j := Fin.ext (by show 3 * (j.val / 3) + j.val % 3 = j.val; omega)
  rwa [e] at this

theorem nineQ (f : Fin 9 → ℚ) : ∑ c, f c = f 0 + f 1 + f 2 + f 3 + f 4 + f 5 + f 6 + f 7 + f 8 := by
  rw [Fin.sum_univ_castSucc, Fin.sum_univ_eight]; rfl

/-- The right hand side of the system. -/
def rhs {T : Type*} (w : Fin 3 → Vec T 3) : Vec T 9 :=
  ![w 0 0, w 0 1, w 0 2, w 1 0, w 1 1, w 1 2, w 2 0, w 2 1, w 2 2]

set_option maxRecDepth 4000 in
/-- The rows of the system. -/
theorem rows {v w : Fin 3 → Vec (Flt P.fmt) 3} {X : Vec (Flt P.fmt) 9} {E : ℚ}
    (h : ∀ r, |(∑ c, (pointsSystem (v 0) (v 1) (v 2) c r).val * (X c).val) - (rhs w r).val| ≤ E) (k r : Fin 3) :
    |(lin X 0 r).val * (v k 0).val + (lin X 1 r).val * (v k 1).val + (lin X 2 r).val * (v k 2).val - (w k r).val| ≤ E := by
  have first : ∀ {a0 a1 a2 x0 x1 x2 x3 x4 x5 x6 x7 x8 b : ℚ},
      |a0 * x0 + a1 * x1 + a2 * x2 + 0 * x3 + 0 * x4 + 0 * x5 + 0 * x6 + 0 * x7 + 0 * x8 - b| ≤ E →
      |x0 * a0 + x1 * a1 + x2 * a2 - b| ≤ E := by
    intro a0 a1 a2 x0 x1 x2 x3 x4 x5 x6 x7 x8 b h
    refine le_of_eq_of_le (congrArg _ ?_) h; ring
  have second : ∀ {a0 a1 a2 x0 x1 x2 x3 x4 x5 x6 x7 x8 b : ℚ},
      |0 * x0 + 0 * x1 + 0 * x2 + a0 * x3 + a1 * x4 + a2 * x5 + 0 * x6 + 0 * x7 + 0 * x8 - b| ≤ E →
      |x3 * a0 + x4 * a1 + x5 * a2 - b| ≤ E := by
    intro a0 a1 a2 x0 x1 x2 x3 x4 x5 x6 x7 x8 b h
    refine le_of_eq_of_le (congrArg _ ?_) h; ring
  have third : ∀ {a0 a1 a2 x0 x1 x2 x3 x4 x5 x6 x7 x8 b : ℚ},
      |0 * x0 + 0 * x1 + 0 * x2 + 0 * x3 + 0 * x4 + 0 * x5 + a0 * x6 + a1 * x7 + a2 * x8 - b| ≤ E →
      |x6 * a0 + x7 * a1 + x8 * a2 - b| ≤ E := by
    intro a0 a1 a2 x0 x1 x2 x3 x4 x5 x6 x7 x8 b h
    refine le_of_eq_of_le (congrArg _ ?_) h; ring
  simp only [nineQ] at h
  fin_cases k <;> fin_cases r
  · exact first (h 0)
  · exact second (h 1)
  · exact third (h 2)
  · exact first (h 3)
  · exact second (h 4)
  · exact third (h 5)
  · exact first (h 6)
  · exact second (h 7)
  · exact third (h 8)

set_option maxRecDepth 20000 in
/-- Every entry of the system is zero or a component of one of the three vectors. -/
theorem system_entry (v : Fin 3 → Vec (Flt P.fmt) 3) (c r : Fin 9) :
    pointsSystem (v 0) (v 1) (v 2) c r =
      if c.val / 3 = r.val % 3 then v ⟨r.val / 3, by omega⟩ ⟨c.val % 3, by omega⟩ else 0 := by
  fin_cases c <;> fin_cases r <;> rfl

theorem pow_le_quad {u : ℚ} (hu : 0 ≤ u) : ∀ n : ℕ, n * u ≤ 1 → (1 + u) ^ n ≤ 1 + n * u + n ^ 2 * u ^ 2
  | 0, _ => by simp
  | n + 1, h => by
    push_cast at h ⊢
    have hn : (0 : ℚ) ≤ n := Nat.cast_nonneg n
    have h1 := pow_le_quad hu n (by nlinarith)
    rw [pow_succ]
    have h2 := mul_le_mul_of_nonneg_right h1 (by linarith : (0 : ℚ) ≤ 1 + u)
    have h3 : (n : ℚ) * (n * u) * u ^ 2 ≤ n * 1 * u ^ 2 := by
      have : (n : ℚ) * u ≤ 1 := by nlinarith
      exact mul_le_mul_of_nonneg_right (mul_le_mul_of_nonneg_left this hn) (sq_nonneg u)
    nlinarith [sq_nonneg u, mul_nonneg hn (sq_nonneg u)]

/-- The image of one point: residual of the system, rounding of the differences and rounding of the translation. -/
theorem image_err {x0 x1 x2 p0 p1 p2 b0 b1 b2 q q0 v0 v1 v2 w t u E D : ℚ}
    (hE : |x0 * v0 + x1 * v1 + x2 * v2 - w| ≤ E) (h0 : |v0 - (p0 - b0)| ≤ u * |p0 - b0|) (h1 : |v1 - (p1 - b1)| ≤ u * |p1 - b1|)
    (h2 : |v2 - (p2 - b2)| ≤ u * |p2 - b2|) (hw : |w - (q - q0)| ≤ u * |q - q0|)
    (ht : |t - (q0 - x0 * b0 - x1 * b1 - x2 * b2)| ≤ D) :
    |x0 * p0 + x1 * p1 + x2 * p2 + t - q| ≤ E + u * (|x0| * |p0 - b0| + |x1| * |p1 - b1| + |x2| * |p2 - b2| + |q - q0|) + D := by
  have m0 := mul_le_mul_of_nonneg_left h0 (abs_nonneg x0)
  have m1 := mul_le_mul_of_nonneg_left h1 (abs_nonneg x1)
  have m2 := mul_le_mul_of_nonneg_left h2 (abs_nonneg x2)
  rw [← abs_mul] at m0 m1 m2
  rw [abs_le] at hE m0 m1 m2 hw ht ⊢
  obtain ⟨a1, a2⟩ := hE; obtain ⟨b1, b2⟩ := m0; obtain ⟨c1, c2⟩ := m1; obtain ⟨d1, d2⟩ := m2; obtain ⟨e1, e2⟩ := hw
  obtain ⟨f1, f2⟩ := ht
  constructor <;> linarith

/-- Size of the residual bound. -/
theorem lupBound_le (hp : 24 ≤ P.p) {R N : ℚ} (hR : 1 ≤ R) (hN : 0 ≤ N) :
    lupBound P 9 (2 * R) N ≤ 129100 * P.u * R * (1 + N) := by
  have hu0 := P.u_pos
  have hu : P.u ≤ 1 / 2 ^ 24 := by
    unfold BinPar.u
    calc (2 : ℚ) ^ (-(P.p : ℤ)) ≤ 2 ^ (-24 : ℤ) := zpow_le_zpow_right₀ (by norm_num) (by omega)
      _ = 1 / 2 ^ 24 := by norm_num
  have he : P.eta ≤ P.u ^ 2 / 2 := by
    unfold BinPar.eta BinPar.u
    have := P.hmin
    calc (2 : ℚ) ^ (P.qmin - 1) ≤ 2 ^ (-(P.p : ℤ) + -(P.p : ℤ) - 1) := zpow_le_zpow_right₀ (by norm_num) (by omega)
      _ = _ := by rw [zpow_sub₀ (by norm_num : (2 : ℚ) ≠ 0), zpow_add₀ (by norm_num : (2 : ℚ) ≠ 0), zpow_one, sq]
  have h1 := pow_le_quad hu0.le 28 (by push_cast; linarith)
  have h2 := pow_le_quad hu0.le 19 (by push_cast; linarith)
  push_cast at h1 h2
  have h3 : (1 + P.u) ^ 28 - 1 ≤ 28001 / 1000 * P.u := by nlinarith
  have h4 : (1 + P.u) ^ 19 ≤ 11 / 10 := by nlinarith
  have he0 := P.eta_pos
  unfold lupBound
  norm_num only [Nat.cast_ofNat]
  have hRN : 0 ≤ R * N := by positivity
  have k1 : ((1 + P.u) ^ 28 - 1) * (9 * (256 * (2 * R))) * N ≤ 28001 / 1000 * P.u * (9 * (256 * (2 * R))) * N := by
    have : (0 : ℚ) ≤ 9 * (256 * (2 * R)) := by linarith
    exact mul_le_mul_of_nonneg_right (mul_le_mul_of_nonneg_right h3 this) hN
  have k2 : (1 + 256 * (2 * R)) * (10 + N) ≤ 513 * R * (10 * (1 + N)) :=
    mul_le_mul (by linarith) (by linarith) (by linarith) (by linarith)
  have k3 : 10 * (1 + P.u) ^ 19 * P.eta ≤ 10 * (11 / 10) * (P.u ^ 2 / 2) :=
    mul_le_mul (by linarith) he he0.le (by norm_num)
  have k4 : 10 * (1 + P.u) ^ 19 * P.eta * ((1 + 256 * (2 * R)) * (10 + N)) ≤ 10 * (11 / 10) * (P.u ^ 2 / 2) * (513 * R * (10 * (1 + N))) :=
    mul_le_mul k3 k2 (by positivity) (by positivity)
  have k5 : P.u ^ 2 * (R * (1 + N)) ≤ 1 / 2 ^ 24 * P.u * (R * (1 + N)) := by
    refine mul_le_mul_of_nonneg_right ?_ (by positivity)
    rw [sq]; exact mul_le_mul_of_nonneg_right hu hu0.le
  have k6 : 0 ≤ P.u * (R * (1 + N)) := by positivity
  have k7 : P.u * (R * N) ≤ P.u * (R * (1 + N)) := by
    refine mul_le_mul_of_nonneg_left ?_ hu0.le
    exact mul_le_mul_of_nonneg_left (by linarith) (by linarith)
  norm_num only at k1 k4 k5 ⊢
  nlinarith

end FltPts
end vm
