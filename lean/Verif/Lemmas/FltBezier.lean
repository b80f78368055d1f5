import Verif.Lemmas.FltEr
import Verif.Lemmas.FltConst
import Verif.Model.Approx
import Verif.Props.Bezier
import Verif.Props.FltMat
import Mathlib.Tactic.Positivity

/-! Helper lemmas for Bezier surfaces in IEEE arithmetic: the weights, one interpolation, and the surface. -/

set_option linter.unusedSectionVars false
set_option linter.unusedSimpArgs false

namespace vm
variable {P : BinPar} {S : ℕ}

namespace FltBez

theorem u_small (h : 11 ≤ P.p) : P.u ≤ 1 / 2048 := by
  unfold BinPar.u
  calc (2 : ℚ) ^ (-(P.p : ℤ)) ≤ 2 ^ (-11 : ℤ) := zpow_le_zpow_right₀ (by norm_num) (by omega)
    _ = 1 / 2048 := by norm_num

theorem eta_u (P : BinPar) : P.eta ≤ P.u * P.u := by
  unfold BinPar.u BinPar.eta
  rw [← zpow_add₀ (by norm_num)]
  exact zpow_le_zpow_right₀ (by norm_num) (by have := P.hmin; omega)

/-- The three weights: finite, not negative, and close to the Bernstein polynomials. -/
structure Weights (P : BinPar) (X : ℚ) (b0 b1 b2 : Flt P.fmt) : Prop where
  f0 : b0.isFinite
  f1 : b1.isFinite
  f2 : b2.isFinite
  n0 : 0 ≤ b0.val
  n1 : 0 ≤ b1.val
  n2 : 0 ≤ b2.val
  e0 : |b0.val - (1 - 2 * X + X * X)| ≤ P.u * (301 / 100)
  e1 : |b1.val - 2 * (X - X * X)| ≤ P.u * (251 / 100)
  e2 : |b2.val - X * X| ≤ P.u * (1001 / 1000)

theorem small_bound {q : ℚ} (h : |q| ≤ 2) : |q| < P.bound := by
  have h1 : (2 : ℚ) ^ (5 : ℤ) ≤ P.bound := by
    unfold BinPar.bound
    exact zpow_le_zpow_right₀ (by norm_num) (by have := P.hp; have := P.hmax; omega)
  norm_num at h1
  linarith

/-- The values of the weights. -/
theorem weights_val {x : Flt P.fmt} (hx : x.isFinite) (h0 : 0 ≤ x.val) (h1 : x.val ≤ 1) :
    ((bernstein0 x).isFinite ∧ (bernstein0 x).val = P.fl (P.fl (1 - 2 * x.val) + P.fl (x.val * x.val))) ∧
    ((bernstein1 x).isFinite ∧ (bernstein1 x).val = 2 * P.fl (x.val - P.fl (x.val * x.val))) ∧
    ((bernstein2 x).isFinite ∧ (bernstein2 x).val = P.fl (x.val * x.val)) := by
  have r1 : P.Rep 1 := ⟨1, 0, by norm_num, by
    have h8 : (2 : ℤ) ^ 3 ≤ 2 ^ P.p := pow_le_pow_right₀ (by norm_num) P.hp
    norm_num at h8 ⊢; linarith, by have := P.hmin; have := P.hp; omega⟩
  have rx : P.Rep x.val := (Flt.rep_val x).1
  have hxx0 : 0 ≤ x.val * x.val := mul_nonneg h0 h0
  have hxx1 : x.val * x.val ≤ x.val := by nlinarith
  have q0 : 0 ≤ P.fl (x.val * x.val) := P.fl_nonneg hxx0
  have q1 : P.fl (x.val * x.val) ≤ x.val := P.fl_le_of_rep rx hxx1
  have m := is_mul (P := P) (x := x) (y := x) ⟨hx, rfl⟩ ⟨hx, rfl⟩ rfl (small_bound (by rw [abs_of_nonneg q0]; linarith))
  have s0 : 0 ≤ P.fl (x.val - P.fl (x.val * x.val)) := P.fl_nonneg (by linarith)
  have s1 : P.fl (x.val - P.fl (x.val * x.val)) ≤ x.val := P.fl_le_of_rep rx (by linarith)
  have s := is_sub (P := P) (x := x) (y := x * x) ⟨hx, rfl⟩ m rfl (small_bound (by rw [abs_of_nonneg s0]; linarith))
  have d : (2 * (x - x * x)).isFinite ∧ (2 * (x - x * x)).val = P.fl (2 * P.fl (x.val - P.fl (x.val * x.val))) := by
    refine is_mul (P := P) (Flt.two_eq P) s rfl (small_bound ?_)
    have : P.Rep (2 * P.fl (x.val - P.fl (x.val * x.val))) := by
      have := (Flt.rep_val (x - x * x)).1.double
      rwa [s.2] at this
    rw [P.fl_rep this, abs_of_nonneg (by linarith)]; linarith
  have hd : P.fl (2 * P.fl (x.val - P.fl (x.val * x.val))) = 2 * P.fl (x.val - P.fl (x.val * x.val)) := by
    apply P.fl_rep
    have := (Flt.rep_val (x - x * x)).1.double
    rwa [s.2] at this
  rw [hd] at d
  have t := is_mul (P := P) (c := 2 * x.val) (Flt.two_eq P) ⟨hx, rfl⟩ (P.fl_rep rx.double) (small_bound (by rw [abs_of_nonneg (by linarith)]; linarith))
  have w1 : P.fl (1 - 2 * x.val) ≤ 1 := P.fl_le_of_rep r1 (by linarith)
  have w0 : -1 ≤ P.fl (1 - 2 * x.val) := P.le_fl_of_rep r1.neg (by linarith)
  have w := is_sub (P := P) (x := 1) (y := 2 * x) (a := 1) ⟨Flt.one_finite, rfl⟩ t rfl (small_bound (abs_le.2 ⟨by linarith, by linarith⟩))
  have hbig : P.Rep 2 := by have := r1.double; norm_num at this; exact this
  have z := is_add (P := P) (x := 1 - 2 * x) (y := x * x) w m rfl (small_bound (abs_le.2 ⟨by
      have := P.le_fl_of_rep hbig.neg (x := P.fl (1 - 2 * x.val) + P.fl (x.val * x.val)) (by linarith); linarith, by
      exact P.fl_le_of_rep hbig (by linarith)⟩))
  exact ⟨z, d, m⟩

theorem weights (hp : 11 ≤ P.p) {x : Flt P.fmt} (hx : x.isFinite) (h0 : 0 ≤ x.val) (h1 : x.val ≤ 1) :
    Weights P x.val (bernstein0 x) (bernstein1 x) (bernstein2 x) := by
  obtain ⟨⟨f0, v0⟩, ⟨f1, v1⟩, ⟨f2, v2⟩⟩ := weights_val hx h0 h1
  have hu0 := P.u_pos
  have hu := u_small hp
  have he := eta_u P
  have hu2 : P.u * P.u ≤ P.u * (1 / 2048) := mul_le_mul_of_nonneg_left hu hu0.le
  have hxx0 : 0 ≤ x.val * x.val := mul_nonneg h0 h0
  have hxx1 : x.val * x.val ≤ 1 := by nlinarith
  have rx : P.Rep x.val := (Flt.rep_val x).1
  have q1 : P.fl (x.val * x.val) ≤ x.val := P.fl_le_of_rep rx (by nlinarith)
  have q0 : 0 ≤ P.fl (x.val * x.val) := P.fl_nonneg hxx0
  have a2 : |P.fl (x.val * x.val) - x.val * x.val| ≤ P.u * (1001 / 1000) := by
    have e := P.fl_err_u (x.val * x.val)
    rw [abs_of_nonneg hxx0] at e
    have := mul_le_mul_of_nonneg_left hxx1 hu0.le
    linarith
  have rq : P.Rep (P.fl (x.val * x.val)) := by rw [← v2]; exact (Flt.rep_val _).1
  have a1 : |P.fl (x.val - P.fl (x.val * x.val)) - (x.val - P.fl (x.val * x.val))| ≤ P.u * (251 / 1000) := by
    have e := BinPar.fl_sub_err_u rx rq
    have h4 : x.val - x.val * x.val ≤ 1 / 4 := by nlinarith [sq_nonneg (x.val - 1 / 2)]
    have h5 : |x.val - P.fl (x.val * x.val)| ≤ 251 / 1000 := by
      rw [abs_of_nonneg (by linarith)]
      have := (abs_le.1 a2).1
      linarith
    exact e.trans (mul_le_mul_of_nonneg_left h5 hu0.le)
  have r1 : P.Rep 1 := by have := (Flt.rep_val (1 : Flt P.fmt)).1; rwa [Flt.one_val] at this
  have a0 : |P.fl (1 - 2 * x.val) - (1 - 2 * x.val)| ≤ P.u := by
    have e := BinPar.fl_sub_err_u r1 rx.double
    have h5 : |1 - 2 * x.val| ≤ 1 := abs_le.2 ⟨by linarith, by linarith⟩
    have := mul_le_mul_of_nonneg_left h5 hu0.le
    linarith
  have rw0 : P.Rep (P.fl (1 - 2 * x.val)) := by
    have t : (2 * x).isFinite ∧ (2 * x).val = 2 * x.val :=
      is_mul (P := P) (c := 2 * x.val) (Flt.two_eq P) ⟨hx, rfl⟩ (P.fl_rep rx.double) (small_bound (by rw [abs_of_nonneg (by linarith)]; linarith))
    have w1 : P.fl (1 - 2 * x.val) ≤ 1 := P.fl_le_of_rep r1 (by linarith)
    have w0 : -1 ≤ P.fl (1 - 2 * x.val) := P.le_fl_of_rep r1.neg (by linarith)
    have w := is_sub (P := P) (x := 1) (y := 2 * x) (a := 1) ⟨Flt.one_finite, rfl⟩ t rfl (small_bound (abs_le.2 ⟨by linarith, by linarith⟩))
    rw [← w.2]; exact (Flt.rep_val _).1
  have a3 : |P.fl (P.fl (1 - 2 * x.val) + P.fl (x.val * x.val)) - (P.fl (1 - 2 * x.val) + P.fl (x.val * x.val))| ≤ P.u * (1002 / 1000) := by
    have e := BinPar.fl_add_err_u rw0 rq
    have h6 : 1 - 2 * x.val + x.val * x.val ≤ 1 := by nlinarith
    have h7 : 0 ≤ 1 - 2 * x.val + x.val * x.val := by nlinarith [sq_nonneg (1 - x.val)]
    have h5 : |P.fl (1 - 2 * x.val) + P.fl (x.val * x.val)| ≤ 1002 / 1000 := by
      have b1 := abs_le.1 a0
      have b2 := abs_le.1 a2
      exact abs_le.2 ⟨by linarith, by linarith⟩
    exact e.trans (mul_le_mul_of_nonneg_left h5 hu0.le)
  have hneg : 0 ≤ P.fl (1 - 2 * x.val) + P.fl (x.val * x.val) := by
    have h7 : 2 * x.val - 1 ≤ x.val * x.val := by nlinarith [sq_nonneg (1 - x.val)]
    have h8 := P.fl_mono h7
    have h9 := P.fl_neg (2 * x.val - 1)
    rw [neg_sub] at h9
    linarith
  refine ⟨f0, f1, f2, by rw [v0]; exact P.fl_nonneg hneg, by rw [v1]; have := P.fl_nonneg (q := x.val - P.fl (x.val * x.val)) (by linarith); linarith,
    by rw [v2]; exact q0, ?_, ?_, by rw [v2]; exact a2⟩
  · rw [v0]
    have b0 := abs_le.1 a0
    have b2 := abs_le.1 a2
    have b3 := abs_le.1 a3
    exact abs_le.2 ⟨by linarith, by linarith⟩
  · rw [v1]
    have b1 := abs_le.1 a1
    have b2 := abs_le.1 a2
    exact abs_le.2 ⟨by linarith, by linarith⟩

/-- One coordinate of one interpolation. -/
def lerp (X p0 p1 p2 : ℚ) : ℚ := (1 - 2 * X + X * X) * p0 + 2 * (X - X * X) * p1 + X * X * p2

set_option maxHeartbeats 1000000 in
theorem lerp_err (hp : 11 ≤ P.p) {X B : ℚ} (h0 : 0 ≤ X) (h1 : X ≤ 1) {b0 b1 b2 p0 p1 p2 : Flt P.fmt} (w : Weights P X b0 b1 b2)
    (f0 : p0.isFinite) (f1 : p1.isFinite) (f2 : p2.isFinite) (g0 : |p0.val| ≤ B) (g1 : |p1.val| ≤ B) (g2 : |p2.val| ≤ B)
    (hB : 5 / 2 * B + 3 / 2 < P.bound) :
    ((p0 * b0 + p1 * b1 + p2 * b2).isFinite ∧
      (p0 * b0 + p1 * b1 + p2 * b2).val = P.fl (P.fl (P.fl (p0.val * b0.val) + P.fl (p1.val * b1.val)) + P.fl (p2.val * b2.val))) ∧
      |(p0 * b0 + p1 * b1 + p2 * b2).val - lerp X p0.val p1.val p2.val| ≤ 10 * P.u * B + 4 * P.eta := by
  have hu0 := P.u_pos
  have hu := u_small hp
  have he0 := Er.eta_pos P
  have he := eta_u P
  have hB0 : 0 ≤ B := (abs_nonneg _).trans g0
  have hu2 : P.u * P.u ≤ P.u * (1 / 2048) := mul_le_mul_of_nonneg_left hu hu0.le
  have hue : P.u * P.eta ≤ 1 / 2048 * P.eta := mul_le_mul_of_nonneg_right hu he0.le
  have huB : P.u * B ≤ 1 / 2048 * B := mul_le_mul_of_nonneg_right hu hB0
  have huB0 : 0 ≤ P.u * B := by positivity
  have hetas : P.eta ≤ 1 / 2048 := by linarith
  have hx2 : 0 ≤ X * X := mul_nonneg h0 h0
  have c0 := abs_le.1 w.e0
  have c1 := abs_le.1 w.e1
  have c2 := abs_le.1 w.e2
  have hW : b0.val + b1.val + b2.val ≤ 1 + P.u * (6531 / 1000) := by linarith
  have hW' : b0.val + b1.val + b2.val ≤ 1004 / 1000 := by linarith
  have n0 := w.n0
  have n1 := w.n1
  have n2 := w.n2
  -- products
  have prod : ∀ {p b : Flt P.fmt}, p.isFinite → |p.val| ≤ B → b.isFinite → 0 ≤ b.val → b.val ≤ 1004 / 1000 →
      ((p * b).isFinite ∧ (p * b).val = P.fl (p.val * b.val)) ∧ |(p * b).val - p.val * b.val| ≤ P.u * (B * b.val) + P.eta ∧ |p.val * b.val| ≤ B * b.val := by
    intro p b hpf hpB hbf hb0 hb1
    have a1 : |p.val * b.val| ≤ B * b.val := by
      rw [abs_mul, abs_of_nonneg hb0]; exact mul_le_mul_of_nonneg_right hpB hb0
    have a2 : B * b.val ≤ B * (1004 / 1000) := mul_le_mul_of_nonneg_left hb1 hB0
    have i := is_mul (P := P) ⟨hpf, rfl⟩ ⟨hbf, rfl⟩ rfl (fl_lt_bound (q := p.val * b.val) (by linarith))
    refine ⟨i, ?_, a1⟩
    rw [i.2]
    have e := P.fl_err_u (p.val * b.val)
    have := mul_le_mul_of_nonneg_left a1 hu0.le
    linarith
  obtain ⟨⟨pf0, pv0⟩, pe0, pb0⟩ := prod f0 g0 w.f0 n0 (by linarith)
  obtain ⟨⟨pf1, pv1⟩, pe1, pb1⟩ := prod f1 g1 w.f1 n1 (by linarith)
  obtain ⟨⟨pf2, pv2⟩, pe2, pb2⟩ := prod f2 g2 w.f2 n2 (by linarith)
  have hBW := mul_le_mul_of_nonneg_left hW' hB0
  have hBW1 := mul_nonneg hB0 n0
  have hBW2 := mul_nonneg hB0 n1
  have hBW3 := mul_nonneg hB0 n2
  have huBW := mul_le_mul_of_nonneg_left hBW hu0.le
  have s1 := mul_nonneg hu0.le hBW1
  have s2 := mul_nonneg hu0.le hBW2
  have s3 := mul_nonneg hu0.le hBW3
  have k0 := abs_le.1 pe0
  have k1 := abs_le.1 pe1
  have k2 := abs_le.1 pe2
  have l0 := abs_le.1 pb0
  have l1 := abs_le.1 pb1
  have l2 := abs_le.1 pb2
  -- first sum
  have m1 : |(p0 * b0).val + (p1 * b1).val| ≤ 1005 / 1000 * B + 2 * P.eta := abs_le.2 ⟨by linarith, by linarith⟩
  have i1 := is_add (P := P) ⟨pf0, rfl⟩ ⟨pf1, rfl⟩ rfl (fl_lt_bound (q := (p0 * b0).val + (p1 * b1).val) (by linarith))
  have d1 : |(p0 * b0 + p1 * b1).val - ((p0 * b0).val + (p1 * b1).val)| ≤ P.u * (1005 / 1000 * B + 2 * P.eta) := by
    rw [i1.2]
    exact (BinPar.fl_add_err_u (Flt.rep_val _).1 (Flt.rep_val _).1).trans (mul_le_mul_of_nonneg_left m1 hu0.le)
  have k3 := abs_le.1 d1
  have m2 : |(p0 * b0 + p1 * b1).val + (p2 * b2).val| ≤ 1006 / 1000 * B + 4 * P.eta := abs_le.2 ⟨by linarith, by linarith⟩
  have i2 := is_add (P := P) ⟨i1.1, rfl⟩ ⟨pf2, rfl⟩ rfl (fl_lt_bound (q := (p0 * b0 + p1 * b1).val + (p2 * b2).val) (by linarith))
  have d2 : |(p0 * b0 + p1 * b1 + p2 * b2).val - ((p0 * b0 + p1 * b1).val + (p2 * b2).val)| ≤ P.u * (1006 / 1000 * B + 4 * P.eta) := by
    rw [i2.2]
    exact (BinPar.fl_add_err_u (Flt.rep_val _).1 (Flt.rep_val _).1).trans (mul_le_mul_of_nonneg_left m2 hu0.le)
  have k4 := abs_le.1 d2
  -- errors of the weights
  have ew : ∀ {p b β c : ℚ}, |p| ≤ B → |b - β| ≤ P.u * c → |p * b - β * p| ≤ P.u * B * c := by
    intro p b β c hpB hb
    rw [show p * b - β * p = (b - β) * p by ring, abs_mul]
    calc |b - β| * |p| ≤ P.u * c * B := mul_le_mul hb hpB (abs_nonneg _) ((abs_nonneg _).trans hb)
      _ = P.u * B * c := by ring
  have v0 := abs_le.1 (ew g0 w.e0)
  have v1 := abs_le.1 (ew g1 w.e1)
  have v2 := abs_le.1 (ew g2 w.e2)
  refine ⟨⟨i2.1, by rw [i2.2, i1.2, pv0, pv1, pv2]⟩, ?_⟩
  unfold lerp
  exact abs_le.2 ⟨by linarith, by linarith⟩

theorem lerp_abs {X B p0 p1 p2 : ℚ} (h0 : 0 ≤ X) (h1 : X ≤ 1) (g0 : |p0| ≤ B) (g1 : |p1| ≤ B) (g2 : |p2| ≤ B) : |lerp X p0 p1 p2| ≤ B := by
  unfold lerp
  have a0 : 0 ≤ 1 - 2 * X + X * X := by nlinarith [sq_nonneg (1 - X)]
  have a1 : 0 ≤ 2 * (X - X * X) := by nlinarith
  have a2 : 0 ≤ X * X := mul_nonneg h0 h0
  have b0 := abs_le.1 g0
  have b1 := abs_le.1 g1
  have b2 := abs_le.1 g2
  have := mul_le_mul_of_nonneg_left b0.1 a0
  have := mul_le_mul_of_nonneg_left b0.2 a0
  have := mul_le_mul_of_nonneg_left b1.1 a1
  have := mul_le_mul_of_nonneg_left b1.2 a1
  have := mul_le_mul_of_nonneg_left b2.1 a2
  have := mul_le_mul_of_nonneg_left b2.2 a2
  exact abs_le.2 ⟨by linarith, by linarith⟩

theorem lerp_sub (X p0 p1 p2 q0 q1 q2 : ℚ) : lerp X p0 p1 p2 - lerp X q0 q1 q2 = lerp X (p0 - q0) (p1 - q1) (p2 - q2) := by
  unfold lerp; ring

/-- Rounded interpolation is monotone in the points. -/
theorem lerp_mono {b0 b1 b2 p0 p1 p2 q0 q1 q2 : ℚ} (n0 : 0 ≤ b0) (n1 : 0 ≤ b1) (n2 : 0 ≤ b2) (h0 : p0 ≤ q0) (h1 : p1 ≤ q1) (h2 : p2 ≤ q2) :
    P.fl (P.fl (P.fl (p0 * b0) + P.fl (p1 * b1)) + P.fl (p2 * b2)) ≤ P.fl (P.fl (P.fl (q0 * b0) + P.fl (q1 * b1)) + P.fl (q2 * b2)) :=
  P.fl_mono (add_le_add (P.fl_mono (add_le_add (P.fl_mono (mul_le_mul_of_nonneg_right h0 n0)) (P.fl_mono (mul_le_mul_of_nonneg_right h1 n1))))
    (P.fl_mono (mul_le_mul_of_nonneg_right h2 n2)))

/-! ### Grids -/

theorem regrid {g : ℤ} {x : Flt P.fmt} {z B : ℤ} (h : Gr g x z B) (k : ℕ) : Gr (g - k) x (z * 2 ^ k) (B * 2 ^ k) := by
  refine ⟨h.fin, ?_, ?_⟩
  · rw [h.val, zpow_sub₀ (by norm_num)]; push_cast; rw [zpow_natCast]; field_simp
  · rw [abs_mul, abs_of_nonneg (show (0 : ℤ) ≤ 2 ^ k by positivity)]
    exact mul_le_mul_of_nonneg_right h.le (by positivity)

theorem tight {g : ℤ} {x : Flt P.fmt} {z B : ℤ} (h : Gr g x z B) : Gr g x z |z| := ⟨h.fin, h.val, le_refl _⟩

/-- The weights for the parameter `i / 2 ^ m` are exact. -/
theorem grid_weights {m i : ℕ} (hi : i ≤ 2 ^ m) (hm : 4 * (2 ^ m : ℤ) ^ 2 < 2 ^ P.p) (ok : P.Ok (-(2 * m : ℤ))) {x : Flt P.fmt} (hx : x.isFinite)
    (hv : x.val = i / 2 ^ m) :
    Gr (-(2 * m : ℤ)) (bernstein0 x) ((2 ^ m - i) ^ 2) ((2 ^ m - i) ^ 2) ∧ Gr (-(2 * m : ℤ)) (bernstein1 x) (2 * (i * (2 ^ m - i))) (2 * (i * (2 ^ m - i))) ∧
      Gr (-(2 * m : ℤ)) (bernstein2 x) (i * i) (i * i) := by
  have hi' : (i : ℤ) ≤ 2 ^ m := by exact_mod_cast hi
  have hi0 : (0 : ℤ) ≤ i := by positivity
  have hQ : (1 : ℤ) ≤ 2 ^ m := one_le_pow₀ (by norm_num)
  have ok0 := P.ok_zero
  have okm : P.Ok (-(m : ℤ)) := ⟨by have := ok.1; omega, by have := ok0.2; omega⟩
  generalize hq : (2 ^ m : ℤ) = Q at *
  have gx : Gr (-(m : ℤ)) x i i := ⟨hx, by rw [hv, zpow_neg, zpow_natCast]; push_cast; ring, by rw [abs_of_nonneg hi0]⟩
  have h2 : Gr 0 (2 : Flt P.fmt) 2 2 := ⟨(Flt.two_eq P).1, by rw [(Flt.two_eq P).2]; norm_num, by norm_num⟩
  have hii : (i : ℤ) * i ≤ Q ^ 2 := by nlinarith
  have hiQ : (i : ℤ) * Q ≤ Q ^ 2 := by nlinarith
  have hQQ : Q ≤ Q ^ 2 := by nlinarith
  have e2 : (-(m : ℤ)) + -(m : ℤ) = -(2 * m : ℤ) := by ring
  have g2 := (gx.mul gx (by rw [e2]; exact ok) (by linarith)).cast e2
  have gx' := (regrid gx m).cast (show -(m : ℤ) - (m : ℤ) = -(2 * m : ℤ) by ring)
  rw [hq] at gx'
  have gs := tight (gx'.sub g2 ok (by linarith))
  have hs0 : (0 : ℤ) ≤ i * Q - i * i := by nlinarith
  rw [abs_of_nonneg hs0] at gs
  have g1 := (h2.mul gs (by rw [zero_add]; exact ok) (by nlinarith)).cast (zero_add _)
  have gd := (h2.mul gx (by rw [zero_add]; exact okm) (by linarith)).cast (zero_add _)
  have go := (regrid (Gr.one (P := P)) m).cast (zero_sub _)
  rw [hq] at go
  have gw := tight (go.sub gd okm (by linarith))
  have hw : |1 * Q - 2 * (i : ℤ)| ≤ Q := abs_le.2 ⟨by linarith, by linarith⟩
  have gw' := (regrid (gw.mono hw) m).cast (show -(m : ℤ) - (m : ℤ) = -(2 * m : ℤ) by ring)
  rw [hq] at gw'
  have g0 := tight (gw'.add g2 ok (by nlinarith))
  refine ⟨?_, ?_, g2⟩
  · have e : (1 * Q - 2 * (i : ℤ)) * Q + i * i = (Q - i) ^ 2 := by ring
    rw [e, abs_of_nonneg (sq_nonneg _)] at g0
    exact g0
  · have e : (2 : ℤ) * (i * Q - i * i) = 2 * (i * (Q - i)) := by ring
    rw [e] at g1
    exact g1

/-- One interpolation on a grid is exact. -/
theorem grid_lerp {m i : ℕ} (hi : i ≤ 2 ^ m) (hm : 4 * (2 ^ m : ℤ) ^ 2 < 2 ^ P.p) (ok : P.Ok (-(2 * m : ℤ))) {x : Flt P.fmt} (hx : x.isFinite)
    (hv : x.val = i / 2 ^ m) {g N : ℤ} (okg : P.Ok (g + -(2 * m : ℤ))) (hN : N * (2 ^ m) ^ 2 < 2 ^ P.p) {p0 p1 p2 : Flt P.fmt} {z0 z1 z2 : ℤ}
    (h0 : Gr g p0 z0 N) (h1 : Gr g p1 z1 N) (h2 : Gr g p2 z2 N) :
    (∃ z, Gr (g + -(2 * m : ℤ)) (p0 * bernstein0 x + p1 * bernstein1 x + p2 * bernstein2 x) z (N * (2 ^ m) ^ 2)) ∧
      (p0 * bernstein0 x + p1 * bernstein1 x + p2 * bernstein2 x).val = lerp x.val p0.val p1.val p2.val := by
  obtain ⟨w0, w1, w2⟩ := grid_weights hi hm ok hx hv
  have hi' : (i : ℤ) ≤ 2 ^ m := by exact_mod_cast hi
  have hi0 : (0 : ℤ) ≤ i := by positivity
  have hN0 : 0 ≤ N := (abs_nonneg _).trans h0.le
  have hp2 : ((2 : ℚ) ^ m) ≠ 0 := by positivity
  have hlerp : x.val = i / 2 ^ m := hv
  generalize hq : (2 ^ m : ℤ) = Q at *
  have hqq : ((Q : ℤ) : ℚ) = 2 ^ m := by rw [← hq]; push_cast; rfl
  have a0 : 0 ≤ (Q - (i : ℤ)) ^ 2 := sq_nonneg _
  have a1 : 0 ≤ 2 * ((i : ℤ) * (Q - i)) := by have := mul_nonneg hi0 (sub_nonneg.2 hi'); linarith
  have a2 : 0 ≤ (i : ℤ) * i := mul_nonneg hi0 hi0
  have n0 := mul_nonneg hN0 a0
  have n1 := mul_nonneg hN0 a1
  have n2 := mul_nonneg hN0 a2
  have tot : N * (Q - (i : ℤ)) ^ 2 + N * (2 * ((i : ℤ) * (Q - i))) + N * ((i : ℤ) * i) = N * Q ^ 2 := by ring
  have t0 := h0.mul w0 okg (by linarith)
  have t1 := h1.mul w1 okg (by linarith)
  have t2 := h2.mul w2 okg (by linarith)
  have s := (t0.add t1 okg (by linarith)).add t2 okg (by linarith)
  rw [tot] at s
  refine ⟨⟨_, s⟩, ?_⟩
  rw [s.val, h0.val, h1.val, h2.val, hlerp, zpow_add₀ (by norm_num), zpow_neg, show (2 * (m : ℤ)) = ((2 * m : ℕ) : ℤ) by push_cast; ring, zpow_natCast]
  push_cast
  rw [hqq]
  unfold lerp
  rw [pow_mul' 2 2 m]
  field_simp
  ring

theorem interp_comp (x : Flt P.fmt) (p : Fin 3 → Vec (Flt P.fmt) S) (k : Fin S) :
    bezierInterpolate x p k = p 0 k * bernstein0 x + p 1 k * bernstein1 x + p 2 k * bernstein2 x := by
  show 0 + p 0 k * bernstein0 x + p 1 k * bernstein1 x + p 2 k * bernstein2 x = _
  rw [Flt.zero_add']

theorem surface_lerp (c : Fin 3 → Fin 3 → Vec ℚ S) (u v : ℚ) (k : Fin S) :
    evaluateBezier c u v k = lerp v (lerp u (c 0 0 k) (c 0 1 k) (c 0 2 k)) (lerp u (c 1 0 k) (c 1 1 k) (c 1 2 k))
      (lerp u (c 2 0 k) (c 2 1 k) (c 2 2 k)) := by
  simp only [evaluateBezier, bezierInterpolate, bernstein0, bernstein1, bernstein2, vscale, Pi.add_apply, lerp,
    Matrix.cons_val_zero, Matrix.cons_val_one, Matrix.cons_val]
  ring

end FltBez
end vm
