import Verif.Lemmas.FltEr
import Verif.Props.Quat

set_option linter.unusedSectionVars false
set_option linter.unusedSimpArgs false

namespace vm
variable {P : BinPar}

/-- The quaternion with the values of the components. -/
def qval (q : Quat (Flt P.fmt)) : Quat ℚ := ⟨q.r.val, fun i => (q.v i).val⟩

def QFinite (q : Quat (Flt P.fmt)) : Prop := q.r.isFinite ∧ ∀ i, (q.v i).isFinite

/-- The square of the length of a quaternion. -/
def qnorm2 (q : Quat ℚ) : ℚ := q.r ^ 2 + (q.v 0 ^ 2 + q.v 1 ^ 2 + q.v 2 ^ 2)

namespace FltQt

theorem cauchy4 {a b c d x y z w N V : ℚ} (hN : 0 ≤ N) (hV : 0 ≤ V) (h1 : a ^ 2 + b ^ 2 + c ^ 2 + d ^ 2 ≤ N ^ 2)
    (h2 : x ^ 2 + y ^ 2 + z ^ 2 + w ^ 2 ≤ V ^ 2) : |a| * |x| + |b| * |y| + |c| * |z| + |d| * |w| ≤ N * V := by
  rw [← sq_abs a, ← sq_abs b, ← sq_abs c, ← sq_abs d] at h1
  rw [← sq_abs x, ← sq_abs y, ← sq_abs z, ← sq_abs w] at h2
  generalize |a| = a at *
  generalize |b| = b at *
  generalize |c| = c at *
  generalize |d| = d at *
  generalize |x| = x at *
  generalize |y| = y at *
  generalize |z| = z at *
  generalize |w| = w at *
  have h3 : (a * x + b * y + c * z + d * w) ^ 2 ≤ (a ^ 2 + b ^ 2 + c ^ 2 + d ^ 2) * (x ^ 2 + y ^ 2 + z ^ 2 + w ^ 2) := by
    nlinarith [sq_nonneg (a * y - b * x), sq_nonneg (a * z - c * x), sq_nonneg (a * w - d * x), sq_nonneg (b * z - c * y),
      sq_nonneg (b * w - d * y), sq_nonneg (c * w - d * z)]
  have h4 : (a ^ 2 + b ^ 2 + c ^ 2 + d ^ 2) * (x ^ 2 + y ^ 2 + z ^ 2 + w ^ 2) ≤ N ^ 2 * V ^ 2 :=
    mul_le_mul h1 h2 (by positivity) (by positivity)
  have h5 : (a * x + b * y + c * z + d * w) ^ 2 ≤ (N * V) ^ 2 := by rw [mul_pow]; linarith
  exact abs_le_of_sq_le_sq' h5 (by positivity) |>.2

/-- The sums of four terms in the quaternion product. -/
theorem sum4 {k n : ℚ} {p1 p2 p3 p4 : Flt P.fmt} {X1 X2 X3 X4 W1 W2 W3 W4 : ℚ} (h1 : Er k n p1 X1 W1) (h2 : Er k n p2 X2 W2)
    (h3 : Er k n p3 X3 W3) (h4 : Er k n p4 X4 W4) (hk : 0 ≤ k) (hk8 : k ≤ 8) (hn : 0 ≤ n) (hn9 : n ≤ 100)
    (hb : 32 * (W1 + W2 + W3 + W4) + 32 < P.bound) :
    Er (7 / 2 + 3 / 2 * k) (11 / 2 * n) (p1 + p2 + p3 - p4) (X1 + X2 + X3 - X4) (W1 + W2 + W3 + W4) ∧
    Er (7 / 2 + 3 / 2 * k) (11 / 2 * n) (p4 - (p1 + p2 + p3)) (X4 - (X1 + X2 + X3)) (W1 + W2 + W3 + W4) := by
  have hu0 := P.u_pos
  have hu := P.u_le
  have he := Er.eta_pos P
  have he1 := Er.eta_le P
  have w1 := h1.nonneg
  have w2 := h2.nonneg
  have w3 := h3.nonneg
  have w4 := h4.nonneg
  have ku : ∀ K W : ℚ, 0 ≤ W → 0 ≤ K → K ≤ 16 → K * P.u * W ≤ 2 * W := by
    intro K W hW hK0 hK
    refine mul_le_mul_of_nonneg_right ?_ hW
    nlinarith
  have ne : ∀ m : ℚ, m ≤ 10 * n → m * P.eta ≤ 10 := by
    intro m hm
    have : m * P.eta ≤ 1000 * P.eta := mul_le_mul_of_nonneg_right (by linarith) he.le
    linarith
  have s1 := h1.add h2 hk hn hn (by linarith [ku k (W1 + W2) (by linarith) hk (by linarith), ne (n + n) (by linarith)])
  have s2 := s1.add (h3.mono (k1 := 1 + 9 / 8 * k) (n1 := n) (by linarith) le_rfl (by linarith) le_rfl) (by linarith) (by linarith) hn
    (by linarith [ku (1 + 9 / 8 * k) (W1 + W2 + W3) (by linarith) (by linarith) (by linarith), ne (9 / 8 * (n + n) + n) (by linarith)])
  have h4' := h4.mono (k1 := 1 + 9 / 8 * (1 + 9 / 8 * k)) (n1 := n) (by linarith) le_rfl (by linarith) le_rfl
  have b3 := ku (1 + 9 / 8 * (1 + 9 / 8 * k)) (W1 + W2 + W3 + W4) (by linarith) (by linarith) (by linarith)
  have s3 := s2.sub h4' (by linarith) (by linarith) hn (by linarith [ne (9 / 8 * (9 / 8 * (n + n) + n) + n) (by linarith)])
  have s4 := h4'.sub s2 (by linarith) hn (by linarith) (by
    rw [add_comm W4]
    linarith [ne (n + 9 / 8 * (9 / 8 * (n + n) + n)) (by linarith)])
  exact ⟨s3.mono (by linarith) (by linarith) (by linarith) le_rfl, s4.mono (by linarith) (by linarith) (by linarith) (by linarith)⟩

theorem dot3 (a b : Vec (Flt P.fmt) 3) : dot a b = a 0 * b 0 + a 1 * b 1 + a 2 * b 2 := by
  have : dot a b = 0 + a 0 * b 0 + a 1 * b 1 + a 2 * b 2 := rfl
  rw [this, Flt.zero_add']

/-- The weights of the components of a quaternion product. -/
def weights (w0 : ℚ) (w : Fin 3 → ℚ) (q : Quat ℚ) : ℚ × (Fin 3 → ℚ) :=
  (w 0 * |q.v 0| + w 1 * |q.v 1| + w 2 * |q.v 2| + w0 * |q.r|,
    ![w0 * |q.v 0| + w 0 * |q.r| + w 1 * |q.v 2| + w 2 * |q.v 1|,
      w0 * |q.v 1| + w 1 * |q.r| + w 2 * |q.v 0| + w 0 * |q.v 2|,
      w0 * |q.v 2| + w 2 * |q.r| + w 0 * |q.v 1| + w 1 * |q.v 0|])

theorem mul_qval {L : Quat ℚ} (b : Quat ℚ) : (L.mul b).r = L.r * b.r - (L.v 0 * b.v 0 + L.v 1 * b.v 1 + L.v 2 * b.v 2) := by
  have : dot L.v b.v = 0 + L.v 0 * b.v 0 + L.v 1 * b.v 1 + L.v 2 * b.v 2 := rfl
  show L.r * b.r - dot L.v b.v = _
  rw [this, zero_add]

/-- The error of a quaternion product if the left factor is inaccurate. -/
theorem qmul_err {k n B : ℚ} {a b : Quat (Flt P.fmt)} {L : Quat ℚ} {w0 : ℚ} {w : Fin 3 → ℚ} (h0 : Er k n a.r L.r w0)
    (h : ∀ i, Er k n (a.v i) (L.v i) (w i)) (hb : QFinite b) (hB : |b.r.val| ≤ B ∧ ∀ i, |(b.v i).val| ≤ B) (hk : 0 ≤ k) (hk6 : k ≤ 6)
    (hn : 0 ≤ n) (hnB : n * B ≤ 80) (hbd : 32 * (B * (w0 + w 0 + w 1 + w 2)) + 300 < P.bound) :
    Er (5 + 7 / 4 * k) (11 / 2 + 25 / 4 * (n * B)) (a.mul b).r (L.mul (qval b)).r (weights w0 w (qval b)).1 ∧
    ∀ i, Er (5 + 7 / 4 * k) (11 / 2 + 25 / 4 * (n * B)) ((a.mul b).v i) ((L.mul (qval b)).v i) ((weights w0 w (qval b)).2 i) := by
  have hu0 := P.u_pos
  have hu := P.u_le
  have he := Er.eta_pos P
  have he1 := Er.eta_le P
  have p0 := h0.nonneg
  have pw := fun i => (h i).nonneg
  have hB0 : 0 ≤ B := (abs_nonneg _).trans hB.1
  have q0 := mul_nonneg hB0 p0
  have qw := fun i => mul_nonneg hB0 (pw i)
  have nB0 := mul_nonneg hn hB0
  have single : ∀ {W : ℚ}, 0 ≤ W → B * W ≤ B * (w0 + w 0 + w 1 + w 2) → 2 * (B * (W + (k * P.u * W + n * P.eta))) + 1 < P.bound := by
    intro W hW hle
    have h1 : k * P.u * W ≤ 1 * W := mul_le_mul_of_nonneg_right (by nlinarith) hW
    have h2 := mul_le_mul_of_nonneg_left h1 hB0
    have h3 : n * B * P.eta ≤ 80 * P.eta := mul_le_mul_of_nonneg_right hnB he.le
    have h4 : 0 ≤ B * (w0 + w 0 + w 1 + w 2) := le_trans (mul_nonneg hB0 hW) hle
    have h5 : B * (W + (k * P.u * W + n * P.eta)) = B * W + B * (k * P.u * W) + n * B * P.eta := by ring
    rw [h5]
    linarith
  have tot : B * (w0 + w 0 + w 1 + w 2) = B * w0 + B * w 0 + B * w 1 + B * w 2 := by ring
  have t0 := qw 0
  have t1 := qw 1
  have t2 := qw 2
  have le0 : B * w0 ≤ B * (w0 + w 0 + w 1 + w 2) := by linarith
  have lew : ∀ i, B * w i ≤ B * (w0 + w 0 + w 1 + w 2) := by intro i; fin_cases i <;> simp only [Fin.zero_eta, Fin.mk_one, Fin.reduceFinMk] <;> linarith
  have m0r := h0.mul hb.1 hB.1 hk hn (single p0 le0)
  have m0v := fun i => h0.mul (hb.2 i) (hB.2 i) hk hn (single p0 le0)
  have mvr := fun i => (h i).mul hb.1 hB.1 hk hn (single (pw i) (lew i))
  have mvv := fun i j => (h i).mul (hb.2 j) (hB.2 j) hk hn (single (pw i) (lew i))
  have wle : ∀ {W x : ℚ}, 0 ≤ W → |x| ≤ B → W * |x| ≤ B * W := by
    intro W x hW hx; rw [mul_comm B]; exact mul_le_mul_of_nonneg_left hx hW
  have k1 : 0 ≤ 1 + 9 / 8 * k := by linarith
  have k2 : 1 + 9 / 8 * k ≤ 8 := by linarith
  have n1 : 0 ≤ 1 + 9 / 8 * (n * B) := by linarith
  have n2 : 1 + 9 / 8 * (n * B) ≤ 100 := by linarith
  have c1 : 7 / 2 + 3 / 2 * (1 + 9 / 8 * k) ≤ 5 + 7 / 4 * k := by linarith
  have c2 : 11 / 2 * (1 + 9 / 8 * (n * B)) ≤ 11 / 2 + 25 / 4 * (n * B) := by linarith
  have c3 : 0 ≤ 5 + 7 / 4 * k := by linarith
  constructor
  · have s := (sum4 (mvv 0 0) (mvv 1 1) (mvv 2 2) m0r k1 k2 n1 n2 (by
      linarith [wle p0 hB.1, wle (pw 0) (hB.2 0), wle (pw 1) (hB.2 1), wle (pw 2) (hB.2 2)])).2
    rw [mul_qval]
    show Er _ _ (a.r * b.r - dot a.v b.v) _ _
    rw [dot3]
    exact s.mono c1 c2 c3 le_rfl
  · intro i
    fin_cases i
    · exact (sum4 (m0v 0) (mvr 0) (mvv 1 2) (mvv 2 1) k1 k2 n1 n2 (by
        linarith [wle p0 (hB.2 0), wle (pw 0) hB.1, wle (pw 1) (hB.2 2), wle (pw 2) (hB.2 1)])).1.mono c1 c2 c3 le_rfl
    · exact (sum4 (m0v 1) (mvr 1) (mvv 2 0) (mvv 0 2) k1 k2 n1 n2 (by
        linarith [wle p0 (hB.2 1), wle (pw 1) hB.1, wle (pw 2) (hB.2 0), wle (pw 0) (hB.2 2)])).1.mono c1 c2 c3 le_rfl
    · exact (sum4 (m0v 2) (mvr 2) (mvv 0 1) (mvv 1 0) k1 k2 n1 n2 (by
        linarith [wle p0 (hB.2 2), wle (pw 2) hB.1, wle (pw 0) (hB.2 1), wle (pw 1) (hB.2 0)])).1.mono c1 c2 c3 le_rfl

/-- The components are bounded by the length. -/
theorem comp_le {q : Quat ℚ} {N : ℚ} (hN : 0 ≤ N) (h : qnorm2 q ≤ N ^ 2) : |q.r| ≤ N ∧ ∀ i, |q.v i| ≤ N := by
  unfold qnorm2 at h
  have g : ∀ x : ℚ, x ^ 2 ≤ N ^ 2 → |x| ≤ N := fun x hx => abs_le_of_sq_le_sq hx hN
  refine ⟨g _ (by nlinarith [sq_nonneg (q.v 0), sq_nonneg (q.v 1), sq_nonneg (q.v 2)]), fun i => g _ ?_⟩
  fin_cases i <;> simp only [Fin.zero_eta, Fin.mk_one, Fin.reduceFinMk] <;>
    nlinarith [sq_nonneg q.r, sq_nonneg (q.v 0), sq_nonneg (q.v 1), sq_nonneg (q.v 2)]

/-- The product of two exact quaternions. -/
theorem qmul_exact {a b : Quat (Flt P.fmt)} {M N : ℚ} (ha : QFinite a) (hb : QFinite b) (hM : 0 ≤ M) (hN : 0 ≤ N) (hMa : qnorm2 (qval a) ≤ M ^ 2)
    (hNb : qnorm2 (qval b) ≤ N ^ 2) (hbd : 128 * (M * N) + 300 < P.bound) :
    Er 5 6 (a.mul b).r ((qval a).mul (qval b)).r (M * N) ∧ ∀ i, Er 5 6 ((a.mul b).v i) (((qval a).mul (qval b)).v i) (M * N) := by
  have cM := comp_le hM hMa
  have cN := comp_le hN hNb
  have hh := qmul_err (k := 0) (n := 0) (L := qval a) (w0 := |a.r.val|) (w := fun i => |(a.v i).val|) (Er.inp ha.1) (fun i => Er.inp (ha.2 i)) hb cN
    le_rfl (by norm_num) le_rfl (by norm_num) (by
      have h1 := mul_le_mul_of_nonneg_left (add_le_add (add_le_add (add_le_add cM.1 (cM.2 0)) (cM.2 1)) (cM.2 2)) hN
      have h2 : N * (M + M + M + M) = 4 * (M * N) := by ring
      have h3 : N * (|a.r.val| + |(a.v 0).val| + |(a.v 1).val| + |(a.v 2).val|) ≤ N * (M + M + M + M) := h1
      linarith)
  unfold qnorm2 at hMa hNb
  have e : ∀ x y z w : ℚ, (w ^ 2 + (x ^ 2 + y ^ 2 + z ^ 2)) = x ^ 2 + y ^ 2 + z ^ 2 + w ^ 2 := by intros; ring
  have e2 : ∀ x y z w : ℚ, (w ^ 2 + (x ^ 2 + y ^ 2 + z ^ 2)) = w ^ 2 + x ^ 2 + y ^ 2 + z ^ 2 := by intros; ring
  refine ⟨hh.1.mono (by norm_num) (by norm_num) (by norm_num) (cauchy4 hM hN (by rw [e] at hMa; exact hMa) (by rw [e] at hNb; exact hNb)), ?_⟩
  intro i
  refine (hh.2 i).mono (by norm_num) (by norm_num) (by norm_num) ?_
  fin_cases i
  · exact cauchy4 hM hN (by rw [e2] at hMa; exact hMa) (by
      show ((qval b).v 0) ^ 2 + ((qval b).r) ^ 2 + ((qval b).v 2) ^ 2 + ((qval b).v 1) ^ 2 ≤ _; linarith)
  · refine cauchy4 (a := a.r.val) (b := (a.v 1).val) (c := (a.v 2).val) (d := (a.v 0).val) hM hN ?_ (by
      show ((qval b).v 1) ^ 2 + ((qval b).r) ^ 2 + ((qval b).v 0) ^ 2 + ((qval b).v 2) ^ 2 ≤ _; linarith)
    have : (a.r.val ^ 2 + ((a.v 0).val ^ 2 + (a.v 1).val ^ 2 + (a.v 2).val ^ 2)) ≤ M ^ 2 := hMa
    linarith
  · refine cauchy4 (a := a.r.val) (b := (a.v 2).val) (c := (a.v 0).val) (d := (a.v 1).val) hM hN ?_ (by
      show ((qval b).v 2) ^ 2 + ((qval b).r) ^ 2 + ((qval b).v 1) ^ 2 + ((qval b).v 0) ^ 2 ≤ _; linarith)
    have : (a.r.val ^ 2 + ((a.v 0).val ^ 2 + (a.v 1).val ^ 2 + (a.v 2).val ^ 2)) ≤ M ^ 2 := hMa
    linarith

end FltQt
end vm
