import Verif.Lemmas.FltRel
import Verif.Lemmas.FltProj
import Verif.Lemmas.FltAngle
import Verif.Lemmas.FltAng
import Verif.Model.Perspective

/-! `perspective_matrix` in IEEE arithmetic: closed form and running errors. -/

set_option linter.unusedSectionVars false
set_option linter.unusedSimpArgs false

namespace vm
open BinPar FltBM FltProj
variable {P : BinPar}

/-- A perspective camera whose parameters are not extreme: the tangent `t` of half the field of view, the distance `n` of the near plane and the viewport
lie between 2^-m and 2^m, and 2^(6m) is in the range of the format. -/
structure PerspOk (P : BinPar) (m : ℤ) (t n : Flt P.fmt) (W H : ℤ) : Prop where
  prec : 7 ≤ P.p
  one : 1 ≤ m
  lo : P.qmin + P.p - 1 ≤ -(6 * m)
  hi : 6 * m + 1 < P.p + P.qmax
  tf : t.isFinite
  t1 : 2 ^ (-m) ≤ t.val
  t2 : t.val ≤ 2 ^ m
  nf : n.isFinite
  n1 : 2 ^ (-m) ≤ n.val
  n2 : n.val ≤ 2 ^ m
  W1 : 1 ≤ W
  W2 : (W : ℚ) ≤ 2 ^ m
  H1 : 1 ≤ H
  H2 : (H : ℚ) ≤ 2 ^ m

/-- The function `tn` computes the tangent of an angle up to 21/16 (about 75 degrees) with a relative error of at most two rounding errors (and half of the least
positive number). -/
structure AccurateTan (P : BinPar) (tn : Flt P.fmt → Flt P.fmt) : Prop where
  fin : ∀ x, x.isFinite → |x.val| ≤ 21 / 16 → (tn x).isFinite
  err : ∀ x, x.isFinite → |x.val| ≤ 21 / 16 → |((tn x).val : ℝ) - Real.tan x.val| ≤ 2 * P.u * |Real.tan x.val| + P.eta

namespace FltPersp

theorem three (i : Fin 3) : i = 0 ∨ i = 1 ∨ i = 2 := by revert i; decide

/-- The image of a point under the matrix of a perspective camera. -/
theorem persp_point (tn : Flt P.fmt → Flt P.fmt) (fov n f : Flt P.fmt) (W H : ℤ) (p : Vec (Flt P.fmt) 3) (hp : ∀ i, (p i).isFinite) :
    let t := tn (toRadians P.pi fov / 2)
    let v := t * Flt.round (3 / 4) * n
    mmulPoint (perspectiveMatrixF P tn fov n f W H) p 0 = n / (v * Flt.round W / Flt.round H) * p 0 / -p 2 ∧
    mmulPoint (perspectiveMatrixF P tn fov n f W H) p 1 = n / v * p 1 / -p 2 ∧
    mmulPoint (perspectiveMatrixF P tn fov n f W H) p 2 = (-(f + n) / (f - n) * p 2 + -2 * f * n / (f - n)) / -p 2 := by
  intro t v
  have z : ∀ i, 0 * p i = 0 := fun i => Flt.zero_mul_fin (hp i)
  have z0 : (0 * 1 : Flt P.fmt) = 0 := Flt.zero_mul_fin Flt.one_finite
  have o : (-1 : Flt P.fmt) * p 2 = -p 2 := by rw [Flt.neg_mul', Flt.one_mul']
  have den : ∀ x : Flt P.fmt, x / (0 + 0 * p 0 + 0 * p 1 + -1 * p 2 + 0 * 1) = x / -p 2 := by
    intro x
    rw [z, z, z0, o]
    simp only [Flt.zero_add', Flt.add_zero']
  refine ⟨?_, ?_, ?_⟩
  · rw [mmulPoint4]
    show (0 + n / (v * Flt.round W / Flt.round H) * p 0 + 0 * p 1 + 0 * p 2 + 0 * 1) / (0 + 0 * p 0 + 0 * p 1 + -1 * p 2 + 0 * 1) = _
    rw [den, z, z, z0]
    simp only [Flt.zero_add', Flt.add_zero']
  · rw [mmulPoint4]
    show (0 + 0 * p 0 + n / v * p 1 + 0 * p 2 + 0 * 1) / (0 + 0 * p 0 + 0 * p 1 + -1 * p 2 + 0 * 1) = _
    rw [den, z, z, z0]
    simp only [Flt.zero_add', Flt.add_zero']
  · rw [mmulPoint4]
    show (0 + 0 * p 0 + 0 * p 1 + -(f + n) / (f - n) * p 2 + -2 * f * n / (f - n) * 1) / (0 + 0 * p 0 + 0 * p 1 + -1 * p 2 + 0 * 1) = _
    rw [den, z, z, Flt.mul_one']
    simp only [Flt.zero_add', Flt.add_zero']

section good
variable {m : ℤ} {t n f : Flt P.fmt} {W H : ℤ}

theorem good_pos {x : Flt P.fmt} {a b : ℤ} (hf : x.isFinite) (h1 : 2 ^ a ≤ x.val) (h2 : x.val ≤ 2 ^ b) : Good a b 0 x x.val := by
  have h0 : 0 ≤ x.val := (two_zpow_pos a).le.trans h1
  exact Good.exact hf (by rwa [abs_of_nonneg h0]) (by rwa [abs_of_nonneg h0])

theorem good_int {W : ℤ} (h0 : P.qmin + P.p - 1 ≤ -(6 * m)) (h1 : 1 ≤ m) (hi : 6 * m + 1 < P.p + P.qmax) (hW1 : 1 ≤ W) (hW2 : (W : ℚ) ≤ 2 ^ m) :
    Good 0 m 1 (Flt.round W : Flt P.fmt) W := by
  have hW : (1 : ℚ) ≤ W := by exact_mod_cast hW1
  refine Good.round (k := 0) ?_ ?_ (by omega) (by omega) ⟨1, by ring, by simp, by simp⟩
  · rw [abs_of_nonneg (by linarith), zpow_zero]; exact hW
  · rw [abs_of_nonneg (by linarith)]; exact hW2

theorem good_34 : Good (P := P) (-1) 0 0 (Flt.round (3 / 4)) (3 / 4) := by
  have r : P.Rep (3 / 4) := by
    refine ⟨3, -2, by norm_num, ?_, by have := P.hmin; have := P.hp; omega⟩
    calc |(3 : ℤ)| < 2 ^ 3 := by norm_num
      _ ≤ 2 ^ P.p := pow_le_pow_right₀ (by norm_num) P.hp
  have e : P.fl (3 / 4) = 3 / 4 := P.fl_rep r
  have hf : (Flt.round (3 / 4) : Flt P.fmt).isFinite := Flt.round_finite.2 (by
    rw [e]; have := P.one_lt_bound; rw [abs_of_pos (by norm_num)]; linarith)
  have hv : (Flt.round (3 / 4) : Flt P.fmt).val = 3 / 4 := by rw [Flt.round_val hf, e]
  have := good_pos (a := -1) (b := 0) hf (by rw [hv]; norm_num) (by rw [hv]; norm_num)
  rwa [hv] at this

theorem good_v (h : PerspOk P m t n W H) : Good (-2 * m - 1) (2 * m) 2 (t * Flt.round (3 / 4) * n) (t.val * (3 / 4) * n.val) := by
  have h1 := h.one
  have h2 := h.lo
  have h3 := h.hi
  have := ((good_pos h.tf h.t1 h.t2).mul good_34 (by omega) (by omega)).mul (good_pos h.nf h.n1 h.n2) (by omega) (by omega)
  exact this.mono (by omega) (by omega)

theorem good_h (h : PerspOk P m t n W H) :
    Good (-3 * m - 1) (3 * m) 6 (t * Flt.round (3 / 4) * n * Flt.round W / Flt.round H) (t.val * (3 / 4) * n.val * W / H) := by
  have h1 := h.one
  have h2 := h.lo
  have h3 := h.hi
  have := ((good_v h).mul (good_int h2 h1 h3 h.W1 h.W2) (by omega) (by omega)).div (good_int h2 h1 h3 h.H1 h.H2) (by omega) (by omega)
  exact this.mono (by omega) (by omega)

/-- The first coefficient. -/
theorem good_a (h : PerspOk P m t n W H) :
    Good (-4 * m) (4 * m + 1) 7 (n / (t * Flt.round (3 / 4) * n * Flt.round W / Flt.round H)) (H / (t.val * (3 / 4) * W)) := by
  have h1 := h.one
  have h2 := h.lo
  have h3 := h.hi
  have := (good_pos h.nf h.n1 h.n2).div (good_h h) (by omega) (by omega)
  have e : n.val / (t.val * (3 / 4) * n.val * W / H) = H / (t.val * (3 / 4) * W) := by
    have n0 : n.val ≠ 0 := (lt_of_lt_of_le (two_zpow_pos _) h.n1).ne'
    have t0 : t.val ≠ 0 := (lt_of_lt_of_le (two_zpow_pos _) h.t1).ne'
    have W0 : (W : ℚ) ≠ 0 := by have := h.W1; exact_mod_cast (by omega : W ≠ 0)
    have H0 : (H : ℚ) ≠ 0 := by have := h.H1; exact_mod_cast (by omega : H ≠ 0)
    field_simp
  rw [e] at this
  exact this.mono (by omega) (by omega)

/-- The second coefficient. -/
theorem good_b (h : PerspOk P m t n W H) :
    Good (-3 * m) (3 * m + 1) 3 (n / (t * Flt.round (3 / 4) * n)) (1 / (t.val * (3 / 4))) := by
  have h1 := h.one
  have h2 := h.lo
  have h3 := h.hi
  have := (good_pos h.nf h.n1 h.n2).div (good_v h) (by omega) (by omega)
  have e : n.val / (t.val * (3 / 4) * n.val) = 1 / (t.val * (3 / 4)) := by
    have n0 : n.val ≠ 0 := (lt_of_lt_of_le (two_zpow_pos _) h.n1).ne'
    have t0 : t.val ≠ 0 := (lt_of_lt_of_le (two_zpow_pos _) h.t1).ne'
    field_simp
  rw [e] at this
  exact this.mono (by omega) (by omega)

theorem u_small (h : 7 ≤ P.p) : P.u ≤ 1 / 128 := by
  unfold BinPar.u
  calc (2 : ℚ) ^ (-(P.p : ℤ)) ≤ 2 ^ (-7 : ℤ) := zpow_le_zpow_right₀ (by norm_num) (by omega)
    _ = 1 / 128 := by norm_num

theorem sum_err' {a b : Flt P.fmt} (h : (a + b).isFinite) : |(a + b).val - (a.val + b.val)| ≤ P.u * |a.val + b.val| := by
  have := P.fl_add_err_u (Flt.rep_val a).1 (Flt.rep_val b).1
  rwa [← Flt.add_val h] at this

/-- A coordinate divided by the distance. -/
theorem good_coord {c x s : Flt P.fmt} {C : ℚ} {k : ℕ} (h : PerspOk P m t n W H) (hc : Good (-4 * m) (4 * m + 1) k c C) (hxf : x.isFinite)
    (hx : x = 0 ∨ 2 ^ (-m) ≤ |x.val| ∧ |x.val| ≤ 2 ^ m) (hs : s.isFinite) (hs1 : 2 ^ (-m) ≤ -s.val) (hs2 : -s.val ≤ 2 ^ m) (hk : ((k : ℚ) + 3) * (k + 2) ≤ 128) :
    (c * x / -s).isFinite ∧ |(c * x / -s).val - C * x.val / -s.val| ≤ (k + 3) * P.u * |C * x.val / -s.val| := by
  have h1 := h.one
  have h2 := h.lo
  have h3 := h.hi
  have S : Good (-m) m 0 (-s) (-s.val) := by
    have := good_pos (x := -s) (a := -m) (b := m) (Flt.neg_finite.2 hs) (by rwa [Flt.neg_val]) (by rwa [Flt.neg_val])
    rwa [Flt.neg_val] at this
  have s0 : -s.val ≠ 0 := (lt_of_lt_of_le (two_zpow_pos _) hs1).ne'
  rcases hx with rfl | ⟨hx1, hx2⟩
  · have e : c * 0 / -s = 0 := by
      rw [Flt.mul_zero_fin hc.fin, fin_div_fin Flt.zero_isFin S.fin (by rwa [Flt.neg_val]), show (0 : Flt P.fmt).val = 0 from rfl, zero_div]
      exact Flt.round_of_rep P.fmt.rep_zero
    rw [e]
    refine ⟨Flt.zero_isFin, ?_⟩
    rw [show (0 : Flt P.fmt).val = 0 from rfl]
    simp
  · have := (hc.mul (Good.exact hxf hx1 hx2) (by omega) (by omega)).div S (by omega) (by omega)
    refine ⟨this.fin, ?_⟩
    have e := this.err (by
      push_cast
      have := mul_le_mul_of_nonneg_left (u_small h.prec) (by positivity : (0 : ℚ) ≤ ((k : ℚ) + 3) * (k + 2))
      nlinarith)
    push_cast at e
    convert e using 2
    ring

theorem good_sum {a b : Flt P.fmt} {x y : ℤ} (h1 : P.qmin + P.p - 1 ≤ x) (h2 : y < P.p + P.qmax) (ha : a.isFinite) (hb : b.isFinite)
    (lo : 2 ^ x ≤ |a.val + b.val|) (hi : |a.val + b.val| ≤ 2 ^ y) : Good x y 1 (a + b) (a.val + b.val) := by
  rw [Flt.add_eq ha hb]
  exact Good.round (k := 0) lo hi h1 h2 ⟨1, by ring, by simp, by simp⟩

/-- The coefficients of the depth. -/
theorem good_depth (h : PerspOk P m t n W H) (hf : f.isFinite) (hf2 : f.val ≤ 2 ^ m) (hd : 2 ^ (-m) ≤ f.val - n.val) :
    Good (-(2 * m)) (2 * m + 1) 3 (-(f + n) / (f - n)) (-(f.val + n.val) / (f.val - n.val)) ∧
    Good (-(3 * m)) (3 * m + 1) 4 (-2 * f * n / (f - n)) (-2 * f.val * n.val / (f.val - n.val)) := by
  have h1 := h.one
  have h2 := h.lo
  have h3 := h.hi
  have p1 := two_zpow_pos (-m)
  have n1 := h.n1
  have n2 := h.n2
  have D : Good (-m) m 1 (f - n) (f.val - n.val) := by
    have := good_sum (x := -m) (y := m) (by omega) (by omega) hf (Flt.neg_finite.2 h.nf) (by rw [Flt.neg_val, abs_of_nonneg (by linarith)]; linarith)
      (by rw [Flt.neg_val, abs_of_nonneg (by linarith)]; linarith)
    rw [Flt.neg_val, ← sub_eq_add_neg] at this
    exact this
  have S : Good (-m) (m + 1) 1 (f + n) (f.val + n.val) := by
    refine good_sum (by omega) (by omega) hf h.nf (by rw [abs_of_nonneg (by linarith)]; linarith) ?_
    rw [abs_of_nonneg (by linarith), zpow_add2]
    linarith
  have M : Good 1 1 0 (-2 : Flt P.fmt) (-2) := by
    have e : (-2 : Flt P.fmt).val = -2 := by rw [Flt.neg_val, (Flt.two_eq P).2]
    have := Good.exact (a := 1) (b := 1) (x := (-2 : Flt P.fmt)) (Flt.neg_finite.2 (Flt.two_eq P).1) (by rw [e]; norm_num) (by rw [e]; norm_num)
    rwa [e] at this
  have F := good_pos hf (by linarith : 2 ^ (-m) ≤ f.val) hf2
  have N := good_pos h.nf h.n1 h.n2
  exact ⟨(S.neg.div D (by omega) (by omega)).mono (by omega) (by omega),
    (((M.mul F (by omega) (by omega)).mul N (by omega) (by omega)).div D (by omega) (by omega)).mono (by omega) (by omega)⟩

theorem depth_arith {u A B r c d w z η : ℚ} (u0 : 0 < u) (u1 : u ≤ 1 / 128) (A0 : 0 < A) (B0 : 0 < B) (s0 : 0 < r) (e1 : |c - A * r| ≤ 5 * u * (A * r))
    (e2 : |d + B| ≤ 5 * u * B) (e3 : |w - (c + d)| ≤ u * |c + d|) (e4 : |z - w / r| ≤ u * |w / r| + η) :
    |z - (A - B / r)| ≤ 8 * u * (A + B / r) + η := by
  have Ar := mul_pos A0 s0
  have Sp : 0 < A * r + B := by positivity
  have f1 : |c + d - (A * r - B)| ≤ 5 * u * (A * r + B) := by
    have := abs_add_le (c - A * r) (d + B)
    rw [show c - A * r + (d + B) = c + d - (A * r - B) by ring] at this
    linarith
  have f2 : |c + d| ≤ (1 + 5 * u) * (A * r + B) := by
    have h5 := abs_le.1 f1
    refine abs_le.2 ⟨by linarith, by linarith⟩
  have f3 : |w - (A * r - B)| ≤ (6 * u + 5 * u ^ 2) * (A * r + B) := by
    have h5 := abs_le.1 f1
    have h6 := abs_le.1 (e3.trans (mul_le_mul_of_nonneg_left f2 u0.le))
    refine abs_le.2 ⟨by linarith, by linarith⟩
  have f4 : |w| ≤ (1 + 6 * u + 5 * u ^ 2) * (A * r + B) := by
    have h5 := abs_le.1 f3
    refine abs_le.2 ⟨by linarith, by linarith⟩
  have f5 : |w / r - (A - B / r)| ≤ (6 * u + 5 * u ^ 2) * (A + B / r) := by
    have : w / r - (A - B / r) = (w - (A * r - B)) / r := by field_simp
    rw [this, abs_div, abs_of_pos s0, div_le_iff₀ s0]
    refine f3.trans (le_of_eq ?_)
    field_simp
  have f6 : |w / r| ≤ (1 + 6 * u + 5 * u ^ 2) * (A + B / r) := by
    rw [abs_div, abs_of_pos s0, div_le_iff₀ s0]
    refine f4.trans (le_of_eq ?_)
    field_simp
  have T : 0 < A + B / r := by positivity
  have f7 := mul_le_mul_of_nonneg_left f6 u0.le
  have f8 : (7 * u + 11 * u ^ 2 + 5 * u ^ 3) * (A + B / r) ≤ 8 * u * (A + B / r) := by
    refine mul_le_mul_of_nonneg_right ?_ T.le
    have q1 : u ^ 2 ≤ 1 / 128 * u := by rw [pow_two]; exact mul_le_mul_of_nonneg_right u1 u0.le
    have q2 : u ^ 3 ≤ 1 / 128 * u ^ 2 := by rw [pow_succ' u 2]; exact mul_le_mul_of_nonneg_right u1 (by positivity)
    linarith
  have h5 := abs_le.1 f5
  have h6 := abs_le.1 e4
  refine abs_le.2 ⟨by linarith, by linarith⟩

/-- The depth of a point. -/
theorem depth_err (h : PerspOk P m t n W H) (hf : f.isFinite) (hf2 : f.val ≤ 2 ^ m) (hd : 2 ^ (-m) ≤ f.val - n.val) {s : Flt P.fmt}
    (hs : s.isFinite) (hs1 : 2 ^ (-m) ≤ -s.val) (hs2 : -s.val ≤ 2 ^ m) :
    ((-(f + n) / (f - n) * s + -2 * f * n / (f - n)) / -s).isFinite ∧
    |((-(f + n) / (f - n) * s + -2 * f * n / (f - n)) / -s).val - ((f.val + n.val) / (f.val - n.val) - 2 * f.val * n.val / ((f.val - n.val) * -s.val))| ≤
      8 * P.u * ((f.val + n.val) / (f.val - n.val) + 2 * f.val * n.val / ((f.val - n.val) * -s.val)) + P.eta := by
  have h1 := h.one
  have h2 := h.lo
  have h3 := h.hi
  have p1 := two_zpow_pos (-m)
  have n1 := h.n1
  obtain ⟨C, D⟩ := good_depth h hf hf2 hd
  have s0 : 0 < -s.val := lt_of_lt_of_le p1 hs1
  have S : Good (-m) m 0 s s.val :=
    Good.exact hs (by rwa [abs_of_neg (by linarith)]) (by rwa [abs_of_neg (by linarith)])
  have CS := C.mul S (by omega) (by omega)
  have u1 := u_small h.prec
  have u0 := P.u_pos
  have e1 := CS.err (by push_cast; linarith)
  have e2 := D.err (by push_cast; linarith)
  generalize -(f + n) / (f - n) * s = c at *
  generalize -2 * f * n / (f - n) = d at *
  have b1 := CS.hi
  have b2 := D.hi
  have hsum : |c.val + d.val| ≤ 2 ^ (3 * m + 2) := by
    refine (abs_add_le _ _).trans ?_
    have : (2 : ℚ) ^ (3 * m + 2) = 2 ^ (3 * m + 1) + 2 ^ (3 * m + 1) := by
      rw [show 3 * m + 2 = 3 * m + 1 + 1 by ring, zpow_add2 (3 * m + 1) 1]; ring
    rw [show 2 * m + 1 + m = 3 * m + 1 by ring] at b1
    linarith
  have rp : P.Rep (2 ^ (3 * m + 2)) := Good.rep_two (by have := P.hmin; have := P.hp; omega)
  have rp2 : P.Rep (2 ^ (4 * m + 2)) := Good.rep_two (by have := P.hmin; have := P.hp; omega)
  have hw : |P.fl (c.val + d.val)| ≤ 2 ^ (3 * m + 2) :=
    abs_le.2 ⟨P.le_fl_of_rep rp.neg (abs_le.1 hsum).1, P.fl_le_of_rep rp (abs_le.1 hsum).2⟩
  have wf : (c + d).isFinite := by
    rw [Flt.add_eq CS.fin D.fin]
    refine Flt.round_finite.2 (lt_of_le_of_lt hw ?_)
    unfold BinPar.bound
    exact zpow_lt_zpow_right₀ (by norm_num) (by omega)
  have wv : (c + d).val = P.fl (c.val + d.val) := Flt.add_val wf
  have e3 := sum_err' wf
  have hq : |(c + d).val / -s.val| ≤ 2 ^ (4 * m + 2) := by
    rw [abs_div, abs_of_pos s0, div_le_iff₀ s0, wv]
    refine hw.trans ?_
    calc (2 : ℚ) ^ (3 * m + 2) = 2 ^ (4 * m + 2) * 2 ^ (-m) := by rw [← zpow_add2]; congr 1; ring
      _ ≤ _ := mul_le_mul_of_nonneg_left hs1 (two_zpow_pos _).le
  have dv : (c + d) / -s = Flt.round ((c + d).val / -s.val) := by
    have := fin_div_fin wf (Flt.neg_finite.2 hs) (by rw [Flt.neg_val]; exact s0.ne')
    rwa [Flt.neg_val] at this
  have qf : ((c + d) / -s).isFinite := by
    rw [dv]
    refine Flt.round_finite.2 (lt_of_le_of_lt (abs_le.2 ⟨P.le_fl_of_rep rp2.neg (abs_le.1 hq).1, P.fl_le_of_rep rp2 (abs_le.1 hq).2⟩) ?_)
    unfold BinPar.bound
    exact zpow_lt_zpow_right₀ (by norm_num) (by omega)
  refine ⟨qf, ?_⟩
  have e4 : |((c + d) / -s).val - (c + d).val / -s.val| ≤ P.u * |(c + d).val / -s.val| + P.eta := by
    rw [dv] at qf ⊢
    rw [Flt.round_val qf]
    exact P.fl_err_u _
  generalize ((c + d) / -s).val = z at *
  generalize (c + d).val = w at *
  have dpos : 0 < f.val - n.val := lt_of_lt_of_le p1 hd
  have fpos : 0 < f.val := by linarith
  have npos : 0 < n.val := by linarith
  have E1 : -(f.val + n.val) / (f.val - n.val) * s.val = (f.val + n.val) / (f.val - n.val) * -s.val := by ring
  have E2 : -2 * f.val * n.val / (f.val - n.val) = -(2 * f.val * n.val / (f.val - n.val)) := by ring
  rw [E1] at e1
  rw [E2, abs_neg] at e2
  have A0 : 0 < (f.val + n.val) / (f.val - n.val) := by positivity
  have B0 : 0 < 2 * f.val * n.val / (f.val - n.val) := by positivity
  have E3 : 2 * f.val * n.val / ((f.val - n.val) * -s.val) = 2 * f.val * n.val / (f.val - n.val) / -s.val := by rw [div_div]
  rw [E3]
  generalize (f.val + n.val) / (f.val - n.val) = A at *
  generalize 2 * f.val * n.val / (f.val - n.val) = B at *
  generalize -s.val = r at *
  generalize c.val = c at *
  generalize d.val = d at *
  rw [abs_of_pos (mul_pos A0 s0)] at e1
  rw [abs_of_pos B0] at e2
  push_cast at e1 e2
  norm_num at e1 e2
  exact depth_arith u0 u1 A0 B0 s0 e1 e2 e3 e4

end good

/-! ### The tangent -/

theorem cos_lower {x : ℝ} (h : |x| ≤ 21 / 16) : 249 / 1000 ≤ Real.cos x := by
  have h1 := Real.one_sub_sq_div_two_le_cos (x := x / 4)
  have h2 : x ^ 2 ≤ (21 / 16) ^ 2 := by rw [← sq_abs]; exact pow_le_pow_left₀ (abs_nonneg _) h 2
  have h3 : (94 / 100 : ℝ) + 616 / 100000 ≤ Real.cos (x / 4) := by nlinarith
  have h4 := Real.cos_two_mul (x / 4)
  have h5 := Real.cos_two_mul (x / 2)
  rw [show 2 * (x / 4) = x / 2 by ring] at h4
  rw [show 2 * (x / 2) = x by ring] at h5
  have h6 : (7904 / 10000 : ℝ) ≤ Real.cos (x / 2) := by nlinarith
  nlinarith

theorem tan_le_four {x : ℝ} (h : |x| ≤ 21 / 16) : |Real.tan x| ≤ 4 := by
  have c := cos_lower h
  have hs := Real.sin_sq_add_cos_sq x
  rw [Real.tan_eq_sin_div_cos, abs_div, abs_of_pos (by linarith : 0 < Real.cos x), div_le_iff₀ (by linarith)]
  exact abs_le_of_sq_le_sq (by nlinarith) (by linarith)

theorem exists_tan (hp : 10 ≤ P.p) : ∃ tn : Flt P.fmt → Flt P.fmt, AccurateTan P tn := by
  classical
  have h : ∀ x : Flt P.fmt, ∃ s : Flt P.fmt, x.isFinite → |x.val| ≤ 21 / 16 → s.isFinite ∧ |(s.val : ℝ) - Real.tan x.val| ≤ 2 * P.u * |Real.tan x.val| + P.eta := by
    intro x
    by_cases hx : |x.val| ≤ 21 / 16
    · have hx' : |(x.val : ℝ)| ≤ 21 / 16 := by
        have := (Rat.cast_le (K := ℝ)).2 hx
        push_cast at this
        exact this
      obtain ⟨s, a, b, -⟩ := FltRot.near_exists hp (tan_le_four hx')
      exact ⟨s, fun _ _ => ⟨a, b⟩⟩
    · exact ⟨0, fun _ h => absurd h hx⟩
  choose g hg using h
  exact ⟨g, fun x h1 h2 => (hg x h1 h2).1, fun x h1 h2 => (hg x h1 h2).2⟩

/-- Half the field of view in radians. -/
theorem half_angle (hP : P = binary32 ∨ P = binary64) {fov : Flt P.fmt} (hf : fov.isFinite) (h1 : 1 ≤ fov.val) (h2 : fov.val ≤ 150) :
    (toRadians P.pi fov / 2).isFinite ∧ |((toRadians P.pi fov / 2).val : ℝ) - fov.val * Real.pi / 360| ≤ 5 * P.u * (fov.val * Real.pi / 360) := by
  have A := angleFmt hP
  have hpq : P.qmin ≤ -100 ∧ 100 ≤ P.p + P.qmax ∧ P.qmin + P.p - 1 ≤ -100 := by rcases hP with rfl | rfl <;> simp [binary32, binary64]
  have F : Good 0 8 0 fov fov.val := good_pos hf (by norm_num; exact h1) (by norm_num; linarith)
  have Pi : Good 1 2 0 P.pi P.pi.val := good_pos A.fin (by norm_num; linarith [A.lo]) (by norm_num; exact A.hi)
  have D := good_pos (a := 7) (b := 8) A.fin180.1 (by rw [A.fin180.2]; norm_num) (by rw [A.fin180.2]; norm_num)
  have T := good_pos (a := 1) (b := 1) (Flt.two_eq P).1 (by rw [(Flt.two_eq P).2]; norm_num) (by rw [(Flt.two_eq P).2]; norm_num)
  have G := ((F.mul Pi (by omega) (by omega)).div D (by omega) (by omega)).div T (by omega) (by omega)
  refine ⟨G.fin, ?_⟩
  have hu := A.u
  have e := G.err (by push_cast; linarith)
  rw [A.fin180.2, (Flt.two_eq P).2] at e
  change |(toRadians P.pi fov / 2).val - _| ≤ _ at e
  push_cast at e
  have e' := (Rat.cast_le (K := ℝ)).2 e
  push_cast at e'
  have hpi := A.err
  have hu' : (P.u : ℝ) ≤ 1 / 2 ^ 24 := by have := (Rat.cast_le (K := ℝ)).2 hu; push_cast at this; exact this
  have hu0 : (0 : ℝ) < P.u := by exact_mod_cast P.u_pos
  have hx : (1 : ℝ) ≤ fov.val := by exact_mod_cast h1
  generalize ((toRadians P.pi fov / 2).val : ℝ) = r at *
  generalize (P.pi.val : ℝ) = q at *
  generalize (fov.val : ℝ) = x at *
  generalize (P.u : ℝ) = u at *
  have p0 := Real.pi_pos
  obtain ⟨a1, a2⟩ := abs_le.1 hpi
  have q0 : 0 < q := by nlinarith
  rw [show x * q / 180 / 2 = x * q / 360 by ring, abs_of_pos (show 0 < x * q / 360 by positivity)] at e'
  obtain ⟨b1, b2⟩ := abs_le.1 e'
  have x1 : x * (q - Real.pi) ≤ x * (u / 2 * Real.pi) := mul_le_mul_of_nonneg_left a2 (by linarith)
  have x2 : x * -(u / 2 * Real.pi) ≤ x * (q - Real.pi) := mul_le_mul_of_nonneg_left a1 (by linarith)
  have xp : 0 < x * Real.pi := by positivity
  have x3 : u * (x * q) ≤ u * (x * Real.pi + x * (u / 2 * Real.pi)) := mul_le_mul_of_nonneg_left (by linarith) hu0.le
  have x4 : u * (x * (u / 2 * Real.pi)) ≤ 1 / 16 * u * (x * Real.pi) := by
    have : u * u ≤ 1 / 8 * u := mul_le_mul_of_nonneg_right (by linarith) hu0.le
    nlinarith
  exact abs_le.2 ⟨by nlinarith, by nlinarith⟩

theorem tan_sub_le {x a ε : ℝ} (hx : |x| ≤ 21 / 16) (ha0 : 0 < a) (ha : a ≤ 21 / 16) (hε : 0 ≤ ε) (h : |x - a| ≤ ε * a) : |Real.tan x - Real.tan a| ≤ 32 / 5 * ε * Real.tan a := by
  have c1 := cos_lower hx
  have c2 := cos_lower (x := a) (by rwa [abs_of_pos ha0])
  have e : Real.tan x - Real.tan a = Real.sin (x - a) / (Real.cos x * Real.cos a) := by
    rw [Real.tan_eq_sin_div_cos, Real.tan_eq_sin_div_cos, Real.sin_sub]
    field_simp
  have s1 : |Real.sin (x - a)| ≤ ε * a := Real.abs_sin_le_abs.trans h
  have pi1 := Real.pi_gt_d2
  have pi2 := Real.pi_lt_d2
  have j := Real.mul_le_sin (x := a) ha0.le (by linarith)
  have j' : a ≤ 1.575 * Real.sin a := by
    have : 2 / Real.pi * a * (Real.pi / 2) ≤ Real.sin a * (Real.pi / 2) := mul_le_mul_of_nonneg_right j (by positivity)
    rw [show 2 / Real.pi * a * (Real.pi / 2) = a by field_simp] at this
    have s0 : 0 ≤ Real.sin a := by
      by_contra hc
      nlinarith
    nlinarith
  have s0 : 0 < Real.sin a := by linarith
  rw [e, abs_div, abs_of_pos (by positivity : 0 < Real.cos x * Real.cos a), div_le_iff₀ (by positivity), Real.tan_eq_sin_div_cos]
  have : 32 / 5 * ε * (Real.sin a / Real.cos a) * (Real.cos x * Real.cos a) = 32 / 5 * ε * Real.sin a * Real.cos x := by field_simp
  rw [this]
  refine s1.trans ?_
  have h1 : ε * a ≤ ε * (1.575 * Real.sin a) := mul_le_mul_of_nonneg_left j' hε
  have h2 : 32 / 5 * ε * Real.sin a * (249 / 1000) ≤ 32 / 5 * ε * Real.sin a * Real.cos x := mul_le_mul_of_nonneg_left c1 (by positivity)
  have : 0 ≤ ε * Real.sin a := by positivity
  linarith

/-- The tangent of half the field of view. -/
theorem tan_err (hP : P = binary32 ∨ P = binary64) {tn : Flt P.fmt → Flt P.fmt} (hT : AccurateTan P tn) {fov : Flt P.fmt} (hf : fov.isFinite) (h1 : 1 ≤ fov.val)
    (h2 : fov.val ≤ 150) : (tn (toRadians P.pi fov / 2)).isFinite ∧ 1 / 120 ≤ Real.tan (fov.val * Real.pi / 360) ∧ Real.tan (fov.val * Real.pi / 360) ≤ 4 ∧
    |((tn (toRadians P.pi fov / 2)).val : ℝ) - Real.tan (fov.val * Real.pi / 360)| ≤ 35 * P.u * Real.tan (fov.val * Real.pi / 360) := by
  obtain ⟨k1, k2⟩ := half_angle hP hf h1 h2
  have A := angleFmt hP
  have hu' : (P.u : ℝ) ≤ 1 / 2 ^ 24 := by have := (Rat.cast_le (K := ℝ)).2 A.u; push_cast at this; exact this
  have hu0 : (0 : ℝ) < P.u := by exact_mod_cast P.u_pos
  have hη : (P.eta : ℝ) ≤ P.u / 4000 := by
    have : P.eta ≤ P.u / 4000 := by
      have h : P.eta ≤ 2 ^ (-(P.p : ℤ) + -12) := by
        unfold BinPar.eta
        exact zpow_le_zpow_right₀ (by norm_num) (by rcases hP with rfl | rfl <;> simp [binary32, binary64])
      rw [zpow_add2] at h
      change P.eta ≤ P.u * 2 ^ (-12 : ℤ) at h
      have := P.u_pos
      norm_num at h
      linarith
    have := (Rat.cast_le (K := ℝ)).2 this
    push_cast at this
    exact this
  have hx1 : (1 : ℝ) ≤ fov.val := by exact_mod_cast h1
  have hx2 : (fov.val : ℝ) ≤ 150 := by exact_mod_cast h2
  have pi1 := Real.pi_gt_d4
  have pi2 := Real.pi_lt_d4
  have a1 : 1 / 120 ≤ (fov.val : ℝ) * Real.pi / 360 := by nlinarith
  have a2 : (fov.val : ℝ) * Real.pi / 360 ≤ 1.31 := by nlinarith
  have hx : |((toRadians P.pi fov / 2).val : ℝ)| ≤ 21 / 16 := by
    obtain ⟨b1, b2⟩ := abs_le.1 k2
    refine abs_le.2 ⟨by nlinarith, by nlinarith⟩
  have t1 := tan_sub_le hx (by linarith) (by linarith) (by positivity) k2
  have t2 := tan_le_four (x := fov.val * Real.pi / 360) (by rw [abs_of_pos (by linarith)]; linarith)
  have t3 : (fov.val : ℝ) * Real.pi / 360 ≤ Real.tan (fov.val * Real.pi / 360) :=
    Real.le_tan (by linarith) (by linarith)
  rw [abs_of_pos (by linarith)] at t2
  have hxq : |(toRadians P.pi fov / 2).val| ≤ 21 / 16 := by
    have : ((|(toRadians P.pi fov / 2).val| : ℚ) : ℝ) ≤ ((21 / 16 : ℚ) : ℝ) := by push_cast; exact hx
    exact_mod_cast this
  have e := hT.err _ k1 hxq
  refine ⟨hT.fin _ k1 hxq, by linarith, t2, ?_⟩
  generalize ((tn (toRadians P.pi fov / 2)).val : ℝ) = t at *
  generalize Real.tan ((toRadians P.pi fov / 2).val : ℝ) = y at *
  generalize Real.tan (fov.val * Real.pi / 360) = T at *
  generalize (P.u : ℝ) = u at *
  generalize (P.eta : ℝ) = η at *
  have T0 : 1 / 120 ≤ T := a1.trans t3
  have uT : 0 < u * T := by positivity
  have y1 : |y| ≤ T + 32 * u * T := by
    obtain ⟨b1, b2⟩ := abs_le.1 t1
    refine abs_le.2 ⟨by linarith, by linarith⟩
  have y2 := mul_le_mul_of_nonneg_left y1 hu0.le
  have y3 : u * (u * T) ≤ 1 / 2 ^ 24 * (u * T) := mul_le_mul_of_nonneg_right hu' uT.le
  have y4 : u / 4000 ≤ u * T / 30 := by nlinarith
  obtain ⟨b1, b2⟩ := abs_le.1 t1
  obtain ⟨c1, c2⟩ := abs_le.1 e
  refine abs_le.2 ⟨by linarith, by linarith⟩

end FltPersp
end vm
