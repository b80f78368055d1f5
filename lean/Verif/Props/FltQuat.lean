import Verif.Lemmas.FltQuat
import Verif.Props.FltTriangle

/-!
C125: products of quaternions and rotation of vectors in IEEE arithmetic.
-/

set_option linter.unusedSectionVars false
set_option linter.unusedSimpArgs false

namespace vm
variable {P : BinPar}

open FltQt FltTri
open BinPar (zpow_add2 two_zpow_pos)

/-- The square of the length of a vector. -/
def vnorm2 (v : Vec ℚ 3) : ℚ := v 0 ^ 2 + v 1 ^ 2 + v 2 ^ 2

/-- The components of the product of two quaternions differ from the exact product by at most 5 rounding units of the product of the
lengths. -/
theorem C125_product (P : BinPar) (a b : Quat (Flt P.fmt)) (M N : ℚ) (ha : QFinite a) (hb : QFinite b) (hM : 0 ≤ M) (hN : 0 ≤ N)
    (hMa : qnorm2 (qval a) ≤ M ^ 2) (hNb : qnorm2 (qval b) ≤ N ^ 2) (hbd : 128 * (M * N) + 300 < P.bound) :
    QFinite (a.mul b) ∧ |(a.mul b).r.val - ((qval a).mul (qval b)).r| ≤ 5 * P.u * (M * N) + 6 * P.eta ∧
    ∀ i, |((a.mul b).v i).val - ((qval a).mul (qval b)).v i| ≤ 5 * P.u * (M * N) + 6 * P.eta := by
  have h := qmul_exact ha hb hM hN hMa hNb hbd
  exact ⟨⟨h.1.fin, fun i => (h.2 i).fin⟩, h.1.err, fun i => (h.2 i).err⟩

namespace FltQt

theorem qnorm_conj (q : Quat (Flt P.fmt)) : qnorm2 (qval q.conjugate) = qnorm2 (qval q) ∧ qval q.conjugate = (qval q).conjugate := by
  have h : qval q.conjugate = (qval q).conjugate := by
    unfold qval Quat.conjugate
    congr 1
    funext i
    exact Flt.neg_val _
  refine ⟨?_, h⟩
  rw [h]
  unfold qnorm2 Quat.conjugate
  simp only [Pi.neg_apply, neg_sq]

theorem rotate_err {q : Quat (Flt P.fmt)} {v : Vec (Flt P.fmt) 3} {N V : ℚ} (hq : QFinite q) (hv : ∀ i, (v i).isFinite) (hN : 0 ≤ N) (hN2 : N ≤ 12)
    (hV : 0 ≤ V) (hNq : qnorm2 (qval q) ≤ N ^ 2) (hVv : vnorm2 (vval v) ≤ V ^ 2) (hbd : 128 * (N * (N + 1) * V) + 300 < P.bound) (i : Fin 3) :
    Er 14 (6 + 38 * N) (q.rotate v i) ((qval q).rotate (vval v) i) (2 * (N ^ 2 * V)) := by
  have hNV := mul_nonneg hN hV
  have hNNV := mul_nonneg hN hNV
  have hv0 : QFinite (⟨0, v⟩ : Quat (Flt P.fmt)) := ⟨Flt.zero_finite, hv⟩
  have e0 : qval (⟨0, v⟩ : Quat (Flt P.fmt)) = ⟨0, vval v⟩ := rfl
  have n0 : qnorm2 (qval (⟨0, v⟩ : Quat (Flt P.fmt))) ≤ V ^ 2 := by
    rw [e0]
    unfold qnorm2
    unfold vnorm2 at hVv
    simp only
    linarith
  have e1 : N * (N + 1) * V = N * (N * V) + N * V := by ring
  have s1 := qmul_exact hq hv0 hN hV hNq n0 (by linarith)
  have hc := qnorm_conj q
  have hcf : QFinite q.conjugate := ⟨hq.1, fun i => Flt.neg_finite.2 (hq.2 i)⟩
  have cB := comp_le hN (hc.1.le.trans hNq)
  have s2 := (qmul_err (L := (qval q).mul (qval ⟨0, v⟩)) (w0 := N * V) (w := fun _ => N * V) (B := N) s1.1 s1.2 hcf cB (by norm_num) (by norm_num)
    (by norm_num) (by linarith) (by linarith)).2 i
  rw [hc.2, e0] at s2
  refine s2.mono (by norm_num) (by linarith) (by norm_num) ?_
  have hq4 : qnorm2 (qval q).conjugate ≤ N ^ 2 := by rw [← hc.2]; exact hc.1.le.trans hNq
  have c4 : ∀ x y z w : ℚ, w ^ 2 + (x ^ 2 + y ^ 2 + z ^ 2) ≤ N ^ 2 → |x| + |w| + |y| + |z| ≤ 2 * N := by
    intro x y z w hh
    have := cauchy4 (a := x) (b := w) (c := y) (d := z) (x := 1) (y := 1) (z := 1) (w := 1) hN (by norm_num : (0 : ℚ) ≤ 2) (by linarith) (by norm_num)
    rw [abs_one] at this
    linarith
  have c5 := c4 _ _ _ _ hq4
  have c6 := mul_le_mul_of_nonneg_left c5 hNV
  have c7 : N * V * (2 * N) = 2 * (N ^ 2 * V) := by ring
  unfold weights
  fin_cases i <;> simp <;> linarith

/-! ### Exact rotations -/

theorem dotQ (a b : Vec ℚ 3) : dot a b = a 0 * b 0 + a 1 * b 1 + a 2 * b 2 := by
  have : dot a b = 0 + a 0 * b 0 + a 1 * b 1 + a 2 * b 2 := rfl
  rw [this, zero_add]

theorem rotate_norm (q : Quat ℚ) (v : Vec ℚ 3) : vnorm2 (q.rotate v) = qnorm2 q ^ 2 * vnorm2 v := by
  simp only [vnorm2, qnorm2, Quat.rotate, Quat.mul, Quat.conjugate, dotQ, Pi.neg_apply, Matrix.cons_val_zero, Matrix.cons_val_one, Matrix.cons_val]
  ring

theorem rotate_back (q : Quat ℚ) (v : Vec ℚ 3) (i : Fin 3) : q.conjugate.rotate (q.rotate v) i = qnorm2 q ^ 2 * v i := by
  fin_cases i <;>
  simp only [vnorm2, qnorm2, Quat.rotate, Quat.mul, Quat.conjugate, dotQ, Pi.neg_apply, Matrix.cons_val_zero, Matrix.cons_val_one, Matrix.cons_val,
    Fin.zero_eta, Fin.mk_one, Fin.reduceFinMk] <;>
  ring

theorem rotate_sub (q : Quat ℚ) (v w : Vec ℚ 3) (i : Fin 3) : q.rotate v i - q.rotate w i = q.rotate (fun j => v j - w j) i := by
  fin_cases i <;>
  simp only [vnorm2, qnorm2, Quat.rotate, Quat.mul, Quat.conjugate, dotQ, Pi.neg_apply, Matrix.cons_val_zero, Matrix.cons_val_one, Matrix.cons_val,
    Fin.zero_eta, Fin.mk_one, Fin.reduceFinMk] <;>
  ring

theorem vcomp_le {v : Vec ℚ 3} {V : ℚ} (hV : 0 ≤ V) (h : vnorm2 v ≤ V ^ 2) (i : Fin 3) : |v i| ≤ V := by
  unfold vnorm2 at h
  refine abs_le_of_sq_le_sq ?_ hV
  fin_cases i <;> simp only [Fin.zero_eta, Fin.mk_one, Fin.reduceFinMk] <;> nlinarith [sq_nonneg (v 0), sq_nonneg (v 1), sq_nonneg (v 2)]

theorem qnorm_nonneg (q : Quat ℚ) : 0 ≤ qnorm2 q := by unfold qnorm2; positivity
theorem vnorm_nonneg (v : Vec ℚ 3) : 0 ≤ vnorm2 v := by unfold vnorm2; positivity

theorem rotate_norm_le {q : Quat ℚ} {v : Vec ℚ 3} {N V : ℚ} (hq : qnorm2 q ≤ N ^ 2) (hv : vnorm2 v ≤ V ^ 2) :
    vnorm2 (q.rotate v) ≤ (N ^ 2 * V) ^ 2 := by
  rw [rotate_norm, mul_pow]
  exact mul_le_mul (pow_le_pow_left₀ (qnorm_nonneg q) hq 2) hv (vnorm_nonneg v) (by positivity)

end FltQt

/-- Rotating a vector with a quaternion, where `N` and `V` bound the lengths of the quaternion (1 for a rotation) and of the vector: the result
differs from the exact one by at most 28 rounding units of the length of the vector. -/
theorem C125_rotate (P : BinPar) (q : Quat (Flt P.fmt)) (v : Vec (Flt P.fmt) 3) (N V : ℚ) (hq : QFinite q) (hv : ∀ i, (v i).isFinite) (hN : 0 ≤ N)
    (hN2 : N ≤ 12) (hV : 0 ≤ V) (hNq : qnorm2 (qval q) ≤ N ^ 2) (hVv : vnorm2 (vval v) ≤ V ^ 2)
    (hbd : 128 * (N * (N + 1) * V) + 300 < P.bound) (i : Fin 3) :
    (q.rotate v i).isFinite ∧
    |(q.rotate v i).val - (qval q).rotate (vval v) i| ≤ 28 * P.u * (N ^ 2 * V) + (6 + 38 * N) * P.eta := by
  have h := rotate_err hq hv hN hN2 hV hNq hVv hbd i
  exact ⟨h.fin, h.err.trans (by linarith)⟩

/-- Rotation keeps the length up to rounding and up to the error in the length of the quaternion. -/
theorem C125_length (P : BinPar) (q : Quat (Flt P.fmt)) (v : Vec (Flt P.fmt) 3) (N V : ℚ) (hq : QFinite q) (hv : ∀ i, (v i).isFinite) (hN : 0 ≤ N)
    (hN2 : N ≤ 12) (hV : 0 ≤ V) (hNq : qnorm2 (qval q) ≤ N ^ 2) (hVv : vnorm2 (vval v) ≤ V ^ 2)
    (hbd : 128 * (N * (N + 1) * V) + 300 < P.bound) :
    let E := 28 * P.u * (N ^ 2 * V) + (6 + 38 * N) * P.eta
    |vnorm2 (vval (q.rotate v)) - qnorm2 (qval q) ^ 2 * vnorm2 (vval v)| ≤ 6 * (N ^ 2 * V) * E + 3 * E ^ 2 := by
  intro E
  have h := C125_rotate P q v N V hq hv hN hN2 hV hNq hVv hbd
  have hx := rotate_norm_le hNq hVv
  have hc := vcomp_le (by positivity) hx
  rw [← rotate_norm]
  have hE0 : 0 ≤ E := (abs_nonneg _).trans (h 0).2
  have key : ∀ x X : ℚ, |x - X| ≤ E → |X| ≤ N ^ 2 * V → |x ^ 2 - X ^ 2| ≤ 2 * (N ^ 2 * V) * E + E ^ 2 := by
    intro x X h1 h2
    have e : x ^ 2 - X ^ 2 = (x - X) * (2 * X + (x - X)) := by ring
    rw [e, abs_mul]
    have h3 := abs_add_le (2 * X) (x - X)
    rw [abs_mul, abs_two] at h3
    have h4 := mul_le_mul h1 (h3.trans (add_le_add (mul_le_mul_of_nonneg_left h2 two_pos.le) h1)) (abs_nonneg _) hE0
    linarith
  have k0 := key _ _ (h 0).2 (hc 0)
  have k1 := key _ _ (h 1).2 (hc 1)
  have k2 := key _ _ (h 2).2 (hc 2)
  unfold vnorm2
  rw [abs_le] at *
  simp only [vval] at *
  constructor <;> linarith [k0.1, k0.2, k1.1, k1.2, k2.1, k2.2]

/-- Rotating back with the conjugate quaternion returns the vector, scaled by the fourth power of the length of the quaternion, up to rounding. -/
theorem C125_inverse (P : BinPar) (q : Quat (Flt P.fmt)) (v : Vec (Flt P.fmt) 3) (N V E : ℚ) (hq : QFinite q) (hv : ∀ i, (v i).isFinite) (hN : 0 ≤ N)
    (hN2 : N ≤ 12) (hV : 0 ≤ V) (hNq : qnorm2 (qval q) ≤ N ^ 2) (hVv : vnorm2 (vval v) ≤ V ^ 2)
    (hE : E = 28 * P.u * (N ^ 2 * V) + (6 + 38 * N) * P.eta)
    (hbd : 128 * (N * (N + 1) * (V + N ^ 2 * V + 2 * E)) + 300 < P.bound) (i : Fin 3) :
    (q.conjugate.rotate (q.rotate v) i).isFinite ∧
    |(q.conjugate.rotate (q.rotate v) i).val - qnorm2 (qval q) ^ 2 * (v i).val| ≤
      2 * N ^ 2 * E + 28 * P.u * (N ^ 2 * (N ^ 2 * V + 2 * E)) + (6 + 38 * N) * P.eta := by
  have hu := P.u_pos
  have he := Er.eta_pos P
  have hE0 : 0 ≤ E := by rw [hE]; positivity
  have hNN : 0 ≤ N * (N + 1) := by positivity
  have b0 : N * (N + 1) * (V + N ^ 2 * V + 2 * E) = N * (N + 1) * V + N * (N + 1) * (N ^ 2 * V + 2 * E) := by ring
  have b1 : 0 ≤ N * (N + 1) * V := by positivity
  have b2 : 0 ≤ N * (N + 1) * (N ^ 2 * V + 2 * E) := by positivity
  have h := C125_rotate P q v N V hq hv hN hN2 hV hNq hVv (by linarith)
  rw [← hE] at h
  have hx := rotate_norm_le hNq hVv
  set X := (qval q).rotate (vval v) with hX
  have hd : vnorm2 (fun j => vval (q.rotate v) j - X j) ≤ (2 * E) ^ 2 := by
    have g : ∀ j, (vval (q.rotate v) j - X j) ^ 2 ≤ E ^ 2 := fun j => by
      rw [← sq_abs]; exact pow_le_pow_left₀ (abs_nonneg _) (h j).2 2
    unfold vnorm2
    linarith [g 0, g 1, g 2, sq_nonneg E]
  have hw : vnorm2 (vval (q.rotate v)) ≤ (N ^ 2 * V + 2 * E) ^ 2 := by
    have c := cauchy4 (a := X 0) (b := X 1) (c := X 2) (d := 0) (x := vval (q.rotate v) 0 - X 0) (y := vval (q.rotate v) 1 - X 1)
      (z := vval (q.rotate v) 2 - X 2) (w := 0) (N := N ^ 2 * V) (V := 2 * E) (by positivity) (by positivity)
      (by unfold vnorm2 at hx; linarith) (by unfold vnorm2 at hd; linarith)
    have g : ∀ a b : ℚ, b ^ 2 ≤ a ^ 2 + 2 * (|a| * |b - a|) + (b - a) ^ 2 := by
      intro a b
      rw [← abs_mul]
      have := le_abs_self (a * (b - a))
      nlinarith
    unfold vnorm2 at *
    have g0 := g (X 0) (vval (q.rotate v) 0)
    have g1 := g (X 1) (vval (q.rotate v) 1)
    have g2 := g (X 2) (vval (q.rotate v) 2)
    rw [abs_zero, mul_zero] at c
    nlinarith
  have hcf : QFinite q.conjugate := ⟨hq.1, fun i => Flt.neg_finite.2 (hq.2 i)⟩
  have hcn := qnorm_conj q
  have h2 := C125_rotate P q.conjugate (q.rotate v) N (N ^ 2 * V + 2 * E) hcf (fun i => (h i).1) hN hN2 (by positivity) (hcn.1.le.trans hNq) hw
    (by linarith) i
  refine ⟨h2.1, ?_⟩
  rw [hcn.2] at h2
  have e1 := rotate_back (qval q) (vval v) i
  have e2 := rotate_sub (qval q).conjugate (vval (q.rotate v)) X i
  have hq4 : qnorm2 (qval q).conjugate ≤ N ^ 2 := by rw [← hcn.2]; exact hcn.1.le.trans hNq
  have e3 := vcomp_le (by positivity) (rotate_norm_le hq4 hd) i
  have e4 : (q.conjugate.rotate (q.rotate v) i).val - qnorm2 (qval q) ^ 2 * (v i).val =
      ((q.conjugate.rotate (q.rotate v) i).val - (qval q).conjugate.rotate (vval (q.rotate v)) i) +
      (qval q).conjugate.rotate (fun j => vval (q.rotate v) j - X j) i := by
    rw [← e2, hX, e1]
    simp only [vval]
    ring
  rw [e4]
  refine (abs_add_le _ _).trans ?_
  have e5 : N ^ 2 * (2 * E) = 2 * N ^ 2 * E := by ring
  linarith [h2.2]

/-- The entries of the rotation matrix of a quaternion are accurate to 4 rounding units of `1 + 2 N²`, where `N` bounds the length of the
quaternion. -/
theorem C125_matrix (P : BinPar) (q : Quat (Flt P.fmt)) (N : ℚ) (hq : QFinite q) (hNq : qnorm2 (qval q) ≤ N ^ 2)
    (hbd : 16 * (1 + 2 * N ^ 2) + 10 < P.bound) (c r : Fin 4) :
    (rotationMatrixQuat q c r).isFinite ∧
    |(rotationMatrixQuat q c r).val - rotationMatrixQuat (qval q) c r| ≤ 4 * P.u * (1 + 2 * N ^ 2) + 6 * P.eta := by
  have hu0 := P.u_pos
  have hu := P.u_le
  have he := Er.eta_pos P
  have he1 := Er.eta_le P
  have hN2 := sq_nonneg N
  obtain ⟨fw, fv⟩ := hq
  have hn : (q.r.val) ^ 2 + ((q.v 0).val ^ 2 + (q.v 1).val ^ 2 + (q.v 2).val ^ 2) ≤ N ^ 2 := hNq
  have sw := sq_nonneg q.r.val
  have s0 := sq_nonneg (q.v 0).val
  have s1 := sq_nonneg (q.v 1).val
  have s2 := sq_nonneg (q.v 2).val
  have kW : ∀ k W : ℚ, 0 ≤ W → 0 ≤ k → k ≤ 8 → k * P.u * W ≤ W := by
    intro k W hW h0 hk
    calc k * P.u * W ≤ 1 * W := mul_le_mul_of_nonneg_right (by nlinarith) hW
      _ = W := one_mul W
  have prod : ∀ x y : Flt P.fmt, x.isFinite → y.isFinite → |x.val| * |y.val| ≤ N ^ 2 → Er 1 1 (x * y) (x.val * y.val) (|x.val| * |y.val|) := by
    intro x y hx hy hle
    have := (Er.inp hx).mul hy le_rfl le_rfl le_rfl (by simp only [zero_mul, add_zero]; rw [mul_comm |y.val|]; linarith)
    refine this.mono (by norm_num) (by norm_num) (by norm_num) le_rfl
  have amgm : ∀ x y : ℚ, |x| * |y| ≤ (x ^ 2 + y ^ 2) / 2 := by
    intro x y
    rw [← sq_abs x, ← sq_abs y]
    nlinarith [sq_nonneg (|x| - |y|)]
  -- the sum or difference of two products, doubled
  have two : ∀ x y z w : Flt P.fmt, x.isFinite → y.isFinite → z.isFinite → w.isFinite → |x.val| * |y.val| + |z.val| * |w.val| ≤ N ^ 2 →
      Er 3 5 (2 * (x * y + z * w)) (2 * (x.val * y.val + z.val * w.val)) (2 * N ^ 2) ∧
      Er 3 5 (2 * (x * y - z * w)) (2 * (x.val * y.val - z.val * w.val)) (2 * N ^ 2) := by
    intro x y z w hx hy hz hw hle
    have p1 : 0 ≤ |x.val| * |y.val| := by positivity
    have p2 : 0 ≤ |z.val| * |w.val| := by positivity
    have m1 := prod x y hx hy (by linarith)
    have m2 := prod z w hz hw (by linarith)
    have a := (m1.add m2 (by norm_num) (by norm_num) (by norm_num) (by
      linarith [kW 1 (|x.val| * |y.val| + |z.val| * |w.val|) (by linarith) (by norm_num) (by norm_num)])).mono (k1 := 3) (n1 := 5 / 2) (W1 := N ^ 2)
        (by norm_num) (by norm_num) (by norm_num) hle
    have d := (m1.sub m2 (by norm_num) (by norm_num) (by norm_num) (by
      linarith [kW 1 (|x.val| * |y.val| + |z.val| * |w.val|) (by linarith) (by norm_num) (by norm_num)])).mono (k1 := 3) (n1 := 5 / 2) (W1 := N ^ 2)
        (by norm_num) (by norm_num) (by norm_num) hle
    have hb := kW 3 (N ^ 2) hN2 (by norm_num) (by norm_num)
    exact ⟨(a.double (by linarith)).mono le_rfl (by norm_num) (by norm_num) le_rfl, (d.double (by linarith)).mono le_rfl (by norm_num) (by norm_num) le_rfl⟩
  have off : ∀ {x : Flt P.fmt} {X : ℚ}, Er 3 5 x X (2 * N ^ 2) → x.isFinite ∧ |x.val - X| ≤ 4 * P.u * (1 + 2 * N ^ 2) + 6 * P.eta := by
    intro x X h
    have := h.mono (k1 := 4) (n1 := 6) (W1 := 1 + 2 * N ^ 2) (by norm_num) (by norm_num) (by norm_num) (by linarith)
    exact ⟨this.fin, this.err⟩
  have diag : ∀ x y : Flt P.fmt, x.isFinite → y.isFinite → x.val ^ 2 + y.val ^ 2 ≤ N ^ 2 →
      (1 - 2 * (x * x + y * y)).isFinite ∧ |(1 - 2 * (x * x + y * y)).val - (1 - 2 * (x.val * x.val + y.val * y.val))| ≤
        4 * P.u * (1 + 2 * N ^ 2) + 6 * P.eta := by
    intro x y hx hy hle
    have q1 : |x.val| * |x.val| = x.val ^ 2 := by rw [← sq, sq_abs]
    have q2 : |y.val| * |y.val| = y.val ^ 2 := by rw [← sq, sq_abs]
    have p1 := sq_nonneg x.val
    have p2 := sq_nonneg y.val
    have m1 := prod x x hx hx (by rw [q1]; linarith)
    have m2 := prod y y hy hy (by rw [q2]; linarith)
    rw [q1] at m1
    rw [q2] at m2
    have a := (m1.add m2 (by norm_num) (by norm_num) (by norm_num) (by
      linarith [kW 1 (x.val ^ 2 + y.val ^ 2) (by linarith) (by norm_num) (by norm_num)])).mono (k1 := 17 / 8) (n1 := 9 / 4) (W1 := N ^ 2)
        (by norm_num) (by norm_num) (by norm_num) hle
    have hb := kW (17 / 8) (N ^ 2) hN2 (by norm_num) (by norm_num)
    have d := a.double (by linarith)
    have one : Er (17 / 8) 0 (1 : Flt P.fmt) 1 1 := (Er.inp_le (x := (1 : Flt P.fmt)) (B := 1) trivial (by
      show |(1 : ℚ)| ≤ 1; norm_num)).mono (by norm_num) le_rfl (by norm_num) le_rfl
    have hb2 := kW (17 / 8) (1 + 2 * N ^ 2) (by linarith) (by norm_num) (by norm_num)
    have f := (one.sub d (by norm_num) le_rfl (by norm_num) (by linarith)).mono (k1 := 4) (n1 := 6) (W1 := 1 + 2 * N ^ 2)
      (by norm_num) (by norm_num) (by norm_num) le_rfl
    exact ⟨f.fin, f.err⟩
  have am01 := amgm (q.v 0).val (q.v 1).val
  have am02 := amgm (q.v 0).val (q.v 2).val
  have am12 := amgm (q.v 1).val (q.v 2).val
  have am0w := amgm (q.v 0).val q.r.val
  have am1w := amgm (q.v 1).val q.r.val
  have am2w := amgm (q.v 2).val q.r.val
  have z : ∀ x : Flt P.fmt, x.isFinite → x.isFinite ∧ |x.val - x.val| ≤ 4 * P.u * (1 + 2 * N ^ 2) + 6 * P.eta := by
    intro x hx
    refine ⟨hx, ?_⟩
    rw [sub_self, abs_zero]; positivity
  have z0 := z 0 Flt.zero_finite
  have z1 := z 1 trivial
  have txy := two (q.v 0) (q.v 1) (q.v 2) q.r (fv 0) (fv 1) (fv 2) fw (by linarith)
  have txz := two (q.v 0) (q.v 2) (q.v 1) q.r (fv 0) (fv 2) (fv 1) fw (by linarith)
  have tyz := two (q.v 1) (q.v 2) (q.v 0) q.r (fv 1) (fv 2) (fv 0) fw (by linarith)
  fin_cases c <;> fin_cases r
  · exact diag (q.v 1) (q.v 2) (fv 1) (fv 2) (by linarith)
  · exact off txy.1
  · exact off txz.2
  · exact z0
  · exact off txy.2
  · exact diag (q.v 0) (q.v 2) (fv 0) (fv 2) (by linarith)
  · exact off tyz.1
  · exact z0
  · exact off txz.1
  · exact off tyz.2
  · exact diag (q.v 0) (q.v 1) (fv 0) (fv 1) (by linarith)
  · exact z0
  · exact z0
  · exact z0
  · exact z0
  · exact z1

namespace FltQt

/-- The product of quaternions on grids. -/
theorem qmul_grid {ga gb A B : ℤ} {a b : Quat (Flt P.fmt)} {za zb : Quat ℤ} (ha0 : Gr ga a.r za.r A) (ha : ∀ i, Gr ga (a.v i) (za.v i) A)
    (hb0 : Gr gb b.r zb.r B) (hb : ∀ i, Gr gb (b.v i) (zb.v i) B) (hg : P.Ok (ga + gb)) (h : 4 * (A * B) < 2 ^ P.p) :
    Gr (ga + gb) (a.mul b).r (za.mul zb).r (4 * (A * B)) ∧ ∀ i, Gr (ga + gb) ((a.mul b).v i) ((za.mul zb).v i) (4 * (A * B)) := by
  have hA : 0 ≤ A := (abs_nonneg _).trans ha0.le
  have hB : 0 ≤ B := (abs_nonneg _).trans hb0.le
  have hAB := mul_nonneg hA hB
  have m00 := ha0.mul hb0 hg (by linarith)
  have m0 := fun i => ha0.mul (hb i) hg (by linarith)
  have mr := fun i => (ha i).mul hb0 hg (by linarith)
  have m := fun i j => (ha i).mul (hb j) hg (by linarith)
  have s3 : ∀ {x y z w : Flt P.fmt} {a b c d : ℤ}, Gr (ga + gb) x a (A * B) → Gr (ga + gb) y b (A * B) → Gr (ga + gb) z c (A * B) →
      Gr (ga + gb) w d (A * B) → Gr (ga + gb) (x + y + z - w) (a + b + c - d) (4 * (A * B)) ∧
      Gr (ga + gb) (w - (x + y + z)) (d - (a + b + c)) (4 * (A * B)) := by
    intro x y z w a b c d h1 h2 h3 h4
    have t := (h1.add h2 hg (by linarith)).add h3 hg (by linarith)
    exact ⟨(t.sub h4 hg (by linarith)).mono (by linarith), (h4.sub t hg (by linarith)).mono (by linarith)⟩
  refine ⟨?_, fun i => ?_⟩
  · have e1 : (za.mul zb).r = za.r * zb.r - (za.v 0 * zb.v 0 + za.v 1 * zb.v 1 + za.v 2 * zb.v 2) := by
      have : dot za.v zb.v = 0 + za.v 0 * zb.v 0 + za.v 1 * zb.v 1 + za.v 2 * zb.v 2 := rfl
      show za.r * zb.r - dot za.v zb.v = _
      rw [this, zero_add]
    have e2 : (a.mul b).r = a.r * b.r - (a.v 0 * b.v 0 + a.v 1 * b.v 1 + a.v 2 * b.v 2) := by
      show a.r * b.r - dot a.v b.v = _
      rw [dot3]
    rw [e1, e2]
    exact (s3 (m 0 0) (m 1 1) (m 2 2) m00).2
  · fin_cases i
    · exact (s3 (m0 0) (mr 0) (m 1 2) (m 2 1)).1
    · exact (s3 (m0 1) (mr 1) (m 2 0) (m 0 2)).1
    · exact (s3 (m0 2) (mr 2) (m 0 1) (m 1 0)).1

/-- Scaling the factors scales the product. -/
theorem mul_scale (za zb : Quat ℤ) (s t : ℚ) (a b : Quat ℚ) (h1 : a.r = za.r * s) (h2 : ∀ i, a.v i = za.v i * s) (h3 : b.r = zb.r * t)
    (h4 : ∀ i, b.v i = zb.v i * t) : (a.mul b).r = (za.mul zb).r * (s * t) ∧ ∀ i, (a.mul b).v i = (za.mul zb).v i * (s * t) := by
  have e1 : (za.mul zb).r = za.r * zb.r - (za.v 0 * zb.v 0 + za.v 1 * zb.v 1 + za.v 2 * zb.v 2) := by
    have : dot za.v zb.v = 0 + za.v 0 * zb.v 0 + za.v 1 * zb.v 1 + za.v 2 * zb.v 2 := rfl
    show za.r * zb.r - dot za.v zb.v = _
    rw [this, zero_add]
  refine ⟨?_, fun i => ?_⟩
  · rw [mul_qval, e1, h1, h3, h2, h2, h2, h4, h4, h4]; push_cast; ring
  · fin_cases i <;> simp [Quat.mul, h1, h2, h3, h4] <;> ring

end FltQt

/-- If the components of two quaternions are multiples of powers of two of moderate size, then their product is exact. -/
theorem C125_grid_product (P : BinPar) (a b : Quat (Flt P.fmt)) (ga gb A B : ℤ) (ha0 : OnGrid ga A a.r) (ha : ∀ i, OnGrid ga A (a.v i))
    (hb0 : OnGrid gb B b.r) (hb : ∀ i, OnGrid gb B (b.v i)) (hg : P.Ok (ga + gb)) (h : 4 * (A * B) < 2 ^ P.p) :
    QFinite (a.mul b) ∧ qval (a.mul b) = (qval a).mul (qval b) := by
  obtain ⟨f0, z0, v0, l0⟩ := ha0
  obtain ⟨g0, y0, w0, k0⟩ := hb0
  obtain ⟨z, hz⟩ := OnGrid.steps ha
  obtain ⟨y, hy⟩ := OnGrid.steps hb
  have m := qmul_grid (za := ⟨z0, z⟩) (zb := ⟨y0, y⟩) ⟨f0, v0, l0⟩ hz ⟨g0, w0, k0⟩ hy hg h
  have s := mul_scale ⟨z0, z⟩ ⟨y0, y⟩ (2 ^ ga) (2 ^ gb) (qval a) (qval b) v0 (fun i => (hz i).val) w0 (fun i => (hy i).val)
  refine ⟨⟨m.1.fin, fun i => (m.2 i).fin⟩, ?_⟩
  have e1 : (qval (a.mul b)).r = ((qval a).mul (qval b)).r := by
    rw [s.1, ← zpow_add2]; exact m.1.val
  have e2 : (qval (a.mul b)).v = ((qval a).mul (qval b)).v := by
    funext i; rw [s.2 i, ← zpow_add2]; exact (m.2 i).val
  calc qval (a.mul b) = ⟨(qval (a.mul b)).r, (qval (a.mul b)).v⟩ := rfl
    _ = ⟨((qval a).mul (qval b)).r, ((qval a).mul (qval b)).v⟩ := by rw [e1, e2]
    _ = _ := rfl

/-- The same for the rotation of a vector.  This includes the rotations about the axes of a cube, which permute the components of vectors. -/
theorem C125_grid_rotate (P : BinPar) (q : Quat (Flt P.fmt)) (v : Vec (Flt P.fmt) 3) (h g N M : ℤ) (hq0 : OnGrid h N q.r)
    (hq : ∀ i, OnGrid h N (q.v i)) (hv : ∀ i, OnGrid g M (v i)) (hg1 : P.Ok (h + g)) (hg2 : P.Ok (2 * h + g))
    (hw : 4 * (N * M) < 2 ^ P.p) (hw2 : 16 * (N * (N * M)) < 2 ^ P.p) :
    (∀ i, (q.rotate v i).isFinite) ∧ vval (q.rotate v) = (qval q).rotate (vval v) := by
  obtain ⟨f0, z0, v0, l0⟩ := hq0
  obtain ⟨z, hz⟩ := OnGrid.steps hq
  obtain ⟨y, hy⟩ := OnGrid.steps hv
  have hM : 0 ≤ M := (abs_nonneg _).trans (hy 0).le
  have m := qmul_grid (a := q) (b := ⟨0, v⟩) (za := ⟨z0, z⟩) (zb := ⟨0, y⟩) ⟨f0, v0, l0⟩ hz ((Gr.zero g).mono hM) hy hg1 hw
  have s := mul_scale ⟨z0, z⟩ ⟨0, y⟩ (2 ^ h) (2 ^ g) (qval q) ⟨0, vval v⟩ v0 (fun i => (hz i).val) (by simp) (fun i => (hy i).val)
  have m2 := qmul_grid (a := q.mul ⟨0, v⟩) (b := q.conjugate) (zb := ⟨z0, -z⟩) m.1 m.2 ⟨f0, v0, l0⟩ (fun i => (hz i).neg)
    (by rw [show h + g + h = 2 * h + g by ring]; exact hg2) (by nlinarith)
  have s2 := mul_scale ((⟨z0, z⟩ : Quat ℤ).mul ⟨0, y⟩) ⟨z0, -z⟩ (2 ^ h * 2 ^ g) (2 ^ h) ((qval q).mul ⟨0, vval v⟩) (qval q).conjugate s.1 s.2 v0
    (fun i => by
      show -(q.v i).val = ((-z i : ℤ) : ℚ) * 2 ^ h
      rw [(hz i).val]; push_cast; ring)
  refine ⟨fun i => (m2.2 i).fin, ?_⟩
  funext i
  have e := (m2.2 i).val
  show (q.rotate v i).val = _
  refine Eq.trans e ?_
  refine Eq.trans ?_ (s2.2 i).symm
  rw [zpow_add2, zpow_add2]

namespace FltQt

theorem pinf_add {x : Flt P.fmt} (h : x.isFinite) : Flt.pinf + x = Flt.pinf := by
  obtain ⟨k1, k2⟩ := Flt.eq_fin h
  rw [k2]; rfl

theorem pinf_sub {x : Flt P.fmt} (h : x.isFinite) : Flt.pinf - x = Flt.pinf := by
  obtain ⟨k1, k2⟩ := Flt.eq_fin h
  rw [k2]; rfl

theorem zero_sub_pinf : (0 : Flt P.fmt) - Flt.pinf = Flt.ninf := rfl

end FltQt

/-- The rotation of a vector can overflow although the result is the vector itself: rotate a vector with three equal large components about
the diagonal by 120 degrees. -/
theorem C125_overflow_fails (P : BinPar) : ∃ (q : Quat (Flt P.fmt)) (v : Vec (Flt P.fmt) 3), QFinite q ∧ qnorm2 (qval q) = 1 ∧
    (∀ i, (v i).isFinite) ∧ (qval q).rotate (vval v) = vval v ∧ q.rotate v 0 = Flt.pinf := by
  have hp := P.hp
  have hmin := P.hmin
  have hmax := P.hmax
  have pw : (2 : ℤ) ^ P.p = 8 * 2 ^ (P.p - 3) := by
    rw [show (8 : ℤ) = 2 ^ 3 by norm_num, ← pow_add]; congr 1; omega
  have w1 : (1 : ℤ) ≤ 2 ^ (P.p - 3) := one_le_pow₀ (by norm_num)
  set w : ℤ := 2 ^ (P.p - 3) with hw
  have o0 : P.Ok P.qmax := ⟨by omega, le_rfl⟩
  have o1 : P.Ok (-1 + P.qmax) := ⟨by omega, by omega⟩
  have o2 : P.Ok (-1) := ⟨by omega, by omega⟩
  have H : Gr (-1) (Flt.round (1 / 2) : Flt P.fmt) 1 1 := Gr.round o2 (by norm_num) (by norm_num) (by rw [pw]; omega)
  have M : Gr P.qmax (Flt.round ((6 * w : ℤ) * 2 ^ P.qmax) : Flt P.fmt) (6 * w) (6 * w) := Gr.round o0 rfl (abs_of_nonneg (by omega)).le (by rw [pw]; omega)
  have Hv : (Flt.round (1 / 2) : Flt P.fmt).val = 1 / 2 := by rw [H.val]; norm_num
  generalize (Flt.round (1 / 2) : Flt P.fmt) = half at *
  generalize (Flt.round ((6 * w : ℤ) * 2 ^ P.qmax) : Flt P.fmt) = m at *
  have e1 : (2 : ℚ) ^ (-1 + P.qmax) = 1 / 2 * 2 ^ P.qmax := by rw [zpow_add2]; norm_num
  have hm0 : half * m = Flt.round ((6 * w : ℤ) * (1 / 2 * 2 ^ P.qmax)) := by
    rw [Flt.mul_eq H.fin M.fin, Hv, M.val]; congr 1; ring
  have W : Gr P.qmax (half * m) (3 * w) (3 * w) := by
    rw [hm0]
    exact Gr.round o0 (by push_cast; ring) (abs_of_nonneg (by omega)).le (by rw [pw]; omega)
  have WW : Gr P.qmax (half * m + half * m) (6 * w) (6 * w) := by
    rw [Flt.add_eq W.fin W.fin]
    refine Gr.round o0 ?_ (abs_of_nonneg (by omega)).le (by rw [pw]; omega)
    rw [W.val]; push_cast; ring
  have hdot : half * m + half * m + half * m = Flt.pinf := by
    rw [Flt.add_eq WW.fin W.fin, WW.val, W.val]
    refine round_over ?_
    have : P.bound = 8 * w * 2 ^ P.qmax := by
      have : ((2 : ℤ) ^ P.p : ℚ) = 8 * w := by exact_mod_cast pw
      unfold BinPar.bound
      rw [zpow_add2, ← this, zpow_natCast]; push_cast; ring
    rw [this]
    have hq := two_zpow_pos P.qmax
    have hw0 : (0 : ℚ) ≤ w := by exact_mod_cast (by omega : 0 ≤ w)
    push_cast
    nlinarith [mul_nonneg hw0 hq.le]
  have h0 : half * 0 = 0 := Flt.mul_zero_fin H.fin
  have F : Gr P.qmax (half * m + half * m - half * m) (3 * w) (3 * w) := by
    rw [Flt.sub_eq WW.fin W.fin]
    refine Gr.round o0 ?_ (abs_of_nonneg (by omega)).le (by rw [pw]; omega)
    rw [WW.val, W.val]; push_cast; ring
  have FH : ∀ x : Flt P.fmt, Gr (-1) x 1 1 ∨ Gr (-1) x (-1) 1 → ((half * m + half * m - half * m) * x).isFinite := by
    intro x hx
    rcases hx with hx | hx
    · exact (F.mul hx (by rw [add_comm]; exact o1) (by rw [pw]; omega)).fin
    · exact (F.mul hx (by rw [add_comm]; exact o1) (by rw [pw]; omega)).fin
  let q : Quat (Flt P.fmt) := ⟨half, fun _ => half⟩
  let v : Vec (Flt P.fmt) 3 := fun _ => m
  have hq1 : qnorm2 (qval q) = 1 := by
    show half.val ^ 2 + (half.val ^ 2 + half.val ^ 2 + half.val ^ 2) = 1
    rw [Hv]; norm_num
  refine ⟨q, v, ⟨H.fin, fun _ => H.fin⟩, hq1, fun _ => M.fin, ?_, ?_⟩
  · have e : qval q = ⟨1 / 2, fun _ => 1 / 2⟩ := by
      show (⟨half.val, fun _ => half.val⟩ : Quat ℚ) = _
      rw [Hv]
    rw [e]
    funext i
    fin_cases i <;>
    simp only [Quat.rotate, Quat.mul, Quat.conjugate, dotQ, Pi.neg_apply, Matrix.cons_val_zero, Matrix.cons_val_one, Matrix.cons_val,
      Fin.zero_eta, Fin.mk_one, Fin.reduceFinMk, vval, v] <;> ring
  · have tr : (q.mul ⟨0, v⟩).r = Flt.ninf := by
      refine (congrArg (half * 0 - ·) (FltQt.dot3 q.v v)).trans ?_
      show half * 0 - (half * m + half * m + half * m) = _
      rw [hdot, h0, zero_sub_pinf]
    have tx : ∀ i, (q.mul ⟨0, v⟩).v i = half * m + half * m - half * m := by
      intro i
      have : half * m + half * 0 + half * m - half * m = half * m + half * m - half * m := by rw [h0, Flt.add_zero']
      fin_cases i <;> exact this
    have key : q.rotate v 0 = (q.mul ⟨0, v⟩).r * -half + (q.mul ⟨0, v⟩).v 0 * half + (q.mul ⟨0, v⟩).v 1 * -half - (q.mul ⟨0, v⟩).v 2 * -half := rfl
    have hi : (Flt.ninf : Flt P.fmt) * -half = Flt.pinf := by
      obtain ⟨k1, k2⟩ := Flt.eq_fin H.neg.fin
      rw [k2]
      show Flt.infTimes _ = _
      rw [Flt.neg_val, Hv]
      unfold Flt.infTimes
      norm_num
    rw [key, tr, tx, tx, tx, hi, pinf_add (FH _ (Or.inl H)), pinf_add (FH _ (Or.inr H.neg)), pinf_sub (FH _ (Or.inr H.neg))]

namespace FltQt

theorem half64 : (Flt.round (1 / 2) : Flt binary64.fmt).isFinite ∧ (Flt.round (1 / 2) : Flt binary64.fmt).val = 1 / 2 :=
  is_round (by fl_num (-53) (2 ^ 52)) (lt_bound64 (by norm_num [abs_le]))

theorem int64 (n : ℤ) (h : |n| ≤ 2 ^ 53) : (Flt.round n : Flt binary64.fmt).isFinite ∧ (Flt.round n : Flt binary64.fmt).val = n :=
  Flt.int_finite h

end FltQt

/-- The hypotheses of the accuracy theorems hold for the rotation by 120 degrees about the diagonal and the vector (1, 2, 3); the rotation is
exact and returns (3, 1, 2). -/
example : ∃ (q : Quat (Flt binary64.fmt)) (v : Vec (Flt binary64.fmt) 3), QFinite q ∧ (∀ i, (v i).isFinite) ∧ qnorm2 (qval q) ≤ 1 ^ 2 ∧
    vnorm2 (vval v) ≤ 4 ^ 2 ∧ 128 * (1 * (1 + 1) * 4 : ℚ) + 300 < binary64.bound ∧ vval (q.rotate v) = ![3, 1, 2] := by
  obtain ⟨hf, hv⟩ := half64
  generalize (Flt.round (1 / 2) : Flt binary64.fmt) = half at *
  have hn : ∀ i : Fin 3, (![Flt.round (1 : ℤ), Flt.round (2 : ℤ), Flt.round (3 : ℤ)] : Vec (Flt binary64.fmt) 3) i |>.isFinite := by
    intro i
    fin_cases i
    · exact (int64 1 (by norm_num)).1
    · exact (int64 2 (by norm_num)).1
    · exact (int64 3 (by norm_num)).1
  have hvv : vval (![Flt.round (1 : ℤ), Flt.round (2 : ℤ), Flt.round (3 : ℤ)] : Vec (Flt binary64.fmt) 3) = ![1, 2, 3] := by
    funext i
    fin_cases i
    · exact (int64 1 (by norm_num)).2.trans (by norm_num)
    · exact (int64 2 (by norm_num)).2.trans (by norm_num)
    · exact (int64 3 (by norm_num)).2.trans (by norm_num)
  have e : qval (⟨half, fun _ => half⟩ : Quat (Flt binary64.fmt)) = ⟨1 / 2, fun _ => 1 / 2⟩ := by
    show (⟨half.val, fun _ => half.val⟩ : Quat ℚ) = _
    rw [hv]
  have og : OnGrid (-1) 1 half := ⟨hf, 1, by rw [hv]; norm_num, by norm_num⟩
  have r := C125_grid_rotate binary64 ⟨half, fun _ => half⟩ _ (-1) 0 1 3 og (fun _ => og) (fun i => ⟨hn i, ![1, 2, 3] i, by
      have := congrFun hvv i
      refine Eq.trans this ?_
      fin_cases i <;> norm_num, by fin_cases i <;> norm_num⟩)
    ⟨by norm_num [binary64], by norm_num [binary64]⟩ ⟨by norm_num [binary64], by norm_num [binary64]⟩ (by norm_num [binary64]) (by norm_num [binary64])
  refine ⟨⟨half, fun _ => half⟩, _, ⟨hf, fun _ => hf⟩, hn, ?_, ?_, ?_, ?_⟩
  · rw [e]; norm_num [qnorm2]
  · rw [hvv]
    show (1 : ℚ) ^ 2 + 2 ^ 2 + 3 ^ 2 ≤ 4 ^ 2
    norm_num
  · refine lt_of_le_of_lt (le_abs_self _) (lt_bound64 (by norm_num))
  · rw [r.2, e, hvv]
    funext i
    fin_cases i <;>
    simp only [Quat.rotate, Quat.mul, Quat.conjugate, dotQ, Pi.neg_apply, Matrix.cons_val_zero, Matrix.cons_val_one, Matrix.cons_val,
      Fin.zero_eta, Fin.mk_one, Fin.reduceFinMk] <;> norm_num

end vm
