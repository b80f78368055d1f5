import Verif.Props.FltLength

/-! Helper lemmas for C160: powers of two pass through every rounded operation that neither overflows nor underflows. -/

set_option linter.unusedSectionVars false
set_option linter.unusedSimpArgs false

namespace vm

/-- Zero, or large enough in absolute value for the full precision (not a subnormal number); number format of the instantiations in
/repo/include/vecmath/forward.h:33-55. -/
def BinPar.Normal (P : BinPar) (q : ℚ) : Prop := q = 0 ∨ 2 ^ (P.qmin + P.p - 1) ≤ |q|

namespace FltSc
open BinPar (two_zpow_pos zpow_add2)
variable {P : BinPar}

/-- `y` is finite and exactly `2 ^ k` times the finite number `x`. -/
def Sc (k : ℕ) (x y : Flt P.fmt) : Prop := x.isFinite ∧ y.isFinite ∧ y.val = 2 ^ k * x.val

theorem zk (k : ℕ) : (2 : ℚ) ^ k = (2 : ℚ) ^ (k : ℤ) := (zpow_natCast 2 k).symm

theorem fl_scale (k : ℕ) {q : ℚ} (h : P.Normal q) : P.fl (2 ^ k * q) = 2 ^ k * P.fl q := by
  by_cases q0 : q = 0
  · subst q0
    rw [mul_zero, P.fl_zero, mul_zero]
  have h := h.resolve_left q0
  have l1 := BinPar.log_le_self q0
  have l2 := BinPar.lt_succ_log q
  have l3 := BinPar.le_log_of_le h
  have e : P.ex q = Int.log 2 |q| + 1 - P.p := by
    unfold BinPar.ex
    rw [max_eq_left (by omega)]
  have ak : |(2 : ℚ) ^ k * q| = 2 ^ (k : ℤ) * |q| := by
    rw [abs_mul, zk, abs_of_pos (two_zpow_pos _)]
  have e' : P.ex (2 ^ k * q) = P.ex q + k := by
    apply le_antisymm
    · apply BinPar.ex_le_of_lt
      · exact mul_ne_zero (by positivity) q0
      · rw [ak, e, show Int.log 2 |q| + 1 - (P.p : ℤ) + k + P.p = k + (Int.log 2 |q| + 1) by ring, zpow_add2]
        exact mul_lt_mul_of_pos_left l2 (two_zpow_pos _)
      · have := P.qmin_le_ex q
        omega
    · apply BinPar.le_ex_of_le
      rw [ak, e, show Int.log 2 |q| + 1 - (P.p : ℤ) + k + P.p - 1 = k + Int.log 2 |q| by ring, zpow_add2]
      exact mul_le_mul_of_nonneg_left l1 (two_zpow_pos _).le
  unfold BinPar.fl
  rw [e', zpow_add2, zk]
  have : (2 : ℚ) ^ (k : ℤ) * q / (2 ^ P.ex q * 2 ^ (k : ℤ)) = q / 2 ^ P.ex q := by
    have := (two_zpow_pos (k : ℤ)).ne'
    have := (two_zpow_pos (P.ex q)).ne'
    field_simp
  rw [this]
  ring

theorem rep_eta {q : ℚ} (h : P.Rep q) : ∃ n : ℤ, q = n * 2 ^ P.qmin := by
  obtain ⟨m, e, rfl, -, he⟩ := h
  refine ⟨m * 2 ^ (e - P.qmin).toNat, ?_⟩
  rw [BinPar.zpow_eq_int_mul he]
  push_cast
  ring

theorem fl_add_scale (k : ℕ) {x y : ℚ} (hx : P.Rep x) (hy : P.Rep y) : P.fl (2 ^ k * (x + y)) = 2 ^ k * P.fl (x + y) := by
  by_cases h : P.Normal (x + y)
  · exact fl_scale k h
  · have h2 : |x + y| < 2 ^ (P.qmin + P.p - 1) := not_le.1 fun hc => h (Or.inr hc)
    have h3 : |x + y| ≤ 2 ^ (P.qmin + P.p) := h2.le.trans (zpow_le_zpow_right₀ (by norm_num) (by omega))
    obtain ⟨m, hm⟩ := rep_eta hx
    obtain ⟨n, hn⟩ := rep_eta hy
    have e : x + y = ((m + n : ℤ) : ℚ) * 2 ^ P.qmin := by rw [hm, hn]; push_cast; ring
    have r1 : P.Rep (x + y) := P.rep_multiple le_rfl h3 e
    have r2 : P.Rep (2 ^ k * (x + y)) := by
      refine P.rep_multiple (e := P.qmin + k) (m := m + n) (by omega) ?_ ?_
      · rw [abs_mul, zk, abs_of_pos (two_zpow_pos _), show P.qmin + (k : ℤ) + P.p = k + (P.qmin + P.p) by ring, zpow_add2]
        exact mul_le_mul_of_nonneg_left h3 (two_zpow_pos _).le
      · rw [e, zk, zpow_add2]; ring
    rw [P.fl_rep r1, P.fl_rep r2]

theorem one_le_pow2 (k : ℕ) : (1 : ℚ) ≤ 2 ^ k := one_le_pow₀ (by norm_num)

theorem of_round (k : ℕ) {q q' : ℚ} (h : P.fl q' = 2 ^ k * P.fl q) (hf : (Flt.round q' : Flt P.fmt).isFinite) :
    Sc (P := P) k (Flt.round q) (Flt.round q') := by
  have h1 := Flt.round_finite.1 hf
  have h2 : (Flt.round q : Flt P.fmt).isFinite := by
    refine Flt.round_finite.2 (lt_of_le_of_lt ?_ h1)
    rw [h, abs_mul, abs_of_nonneg (by positivity : (0 : ℚ) ≤ 2 ^ k)]
    have := mul_le_mul_of_nonneg_right (one_le_pow2 k) (abs_nonneg (P.fl q))
    linarith
  exact ⟨h2, hf, by rw [Flt.round_val hf, Flt.round_val h2, h]⟩

theorem Sc.mul {k l : ℕ} {x x' y y' : Flt P.fmt} (hx : Sc k x x') (hy : Sc l y y') (hn : P.Normal (x.val * y.val)) (hf : (x' * y').isFinite) :
    Sc (k + l) (x * y) (x' * y') := by
  rw [Flt.mul_eq hx.2.1 hy.2.1] at hf ⊢
  rw [Flt.mul_eq hx.1 hy.1]
  refine of_round _ ?_ hf
  rw [← fl_scale _ hn, hx.2.2, hy.2.2]
  congr 1
  ring

theorem Sc.add {k : ℕ} {x x' y y' : Flt P.fmt} (hx : Sc k x x') (hy : Sc k y y') (hf : (x' + y').isFinite) : Sc k (x + y) (x' + y') := by
  rw [Flt.add_eq hx.2.1 hy.2.1] at hf ⊢
  rw [Flt.add_eq hx.1 hy.1]
  refine of_round _ ?_ hf
  rw [← fl_add_scale _ (Flt.rep_val x).1 (Flt.rep_val y).1, hx.2.2, hy.2.2]
  congr 1
  ring

theorem Sc.neg {k : ℕ} {x x' : Flt P.fmt} (hx : Sc k x x') : Sc k (-x) (-x') :=
  ⟨Flt.neg_finite.2 hx.1, Flt.neg_finite.2 hx.2.1, by rw [Flt.neg_val, Flt.neg_val, hx.2.2]; ring⟩

theorem Sc.sub {k : ℕ} {x x' y y' : Flt P.fmt} (hx : Sc k x x') (hy : Sc k y y') (hf : (x' - y').isFinite) : Sc k (x - y) (x' - y') :=
  hx.add hy.neg hf

theorem Sc.dot {k l : ℕ} : ∀ {S : ℕ} (a a' b b' : Vec (Flt P.fmt) S), (∀ i, Sc k (a i) (a' i)) → (∀ i, Sc l (b i) (b' i)) →
    (∀ i, P.Normal ((a i).val * (b i).val)) → (dot a' b').isFinite → Sc (k + l) (dot a b) (dot a' b')
  | 0, _, _, _, _, _, _, _, _ => ⟨Flt.zero_finite, Flt.zero_finite, by
      show (0 : Flt P.fmt).val = 2 ^ (k + l) * (0 : Flt P.fmt).val
      rw [Flt.zero_val, mul_zero]⟩
  | S + 1, a, a', b, b', ha, hb, hn, hf => by
    rw [dot_succ' a' b'] at hf ⊢
    rw [dot_succ' a b]
    obtain ⟨f1, f2⟩ := Flt.add_finite hf
    exact (Sc.dot _ _ _ _ (fun i => ha _) (fun i => hb _) (fun i => hn _) f1).add ((ha _).mul (hb _) (hn _) f2) hf

theorem rep_scale (k : ℕ) {q : ℚ} (h : P.Rep q) : P.Rep (2 ^ k * q) := by
  obtain ⟨m, e, rfl, h1, h2⟩ := h
  exact ⟨m, e + k, by rw [zk, zpow_add2]; ring, h1, by omega⟩

/-- A rational square root that is a multiple of half of the least number is a number of the format: a root is never half way between two
numbers. -/
theorem rep_root {x m : ℚ} (hx : P.Rep x) {c : ℤ} (hc : m = c * 2 ^ (P.qmin - 1)) (hm : 0 < m) (h : m * m = x) : P.Rep m := by
  have hq : P.qmin < 0 := by have := P.hmin; have := P.hp; omega
  have c0 : 0 < c := by
    rw [hc] at hm
    have := (mul_pos_iff_of_pos_right (two_zpow_pos _)).1 hm
    exact_mod_cast this
  obtain ⟨n, rfl⟩ := Int.eq_ofNat_of_zero_le c0.le
  obtain ⟨j, N, hN, hn⟩ := Nat.exists_eq_two_pow_mul_odd (n := n) (by omega)
  set f : ℤ := j + (P.qmin - 1) with hf
  have hm' : m = N * 2 ^ f := by
    rw [hc, hn, hf, zpow_add2, zpow_natCast]
    push_cast
    ring
  obtain ⟨M, E, e1, e2, e3⟩ := hx
  have key : (N : ℚ) * N * 2 ^ (2 * f) = M * 2 ^ E := by
    rw [← e1, ← h, hm', two_mul, zpow_add2]; ring
  rcases le_or_gt E (2 * f) with he | he
  · rw [BinPar.zpow_eq_int_mul he, ← mul_assoc] at key
    have k2 : ((N * N * 2 ^ (2 * f - E).toNat : ℤ) : ℚ) = M := by
      have := mul_right_cancel₀ (two_zpow_pos E).ne' key
      push_cast at this ⊢
      exact this
    have k3 : (N * N * 2 ^ (2 * f - E).toNat : ℤ) = M := by exact_mod_cast k2
    have n1 : (1 : ℤ) ≤ N := by have := hN.pos; omega
    have p1 : (1 : ℤ) ≤ 2 ^ (2 * f - E).toNat := one_le_pow₀ (by norm_num)
    have k4 : (N : ℤ) ≤ M := by
      rw [← k3]
      nlinarith [mul_pos (show (0 : ℤ) < N by omega) (show (0 : ℤ) < N by omega)]
    refine ⟨N, f, by rw [hm']; push_cast; rfl, ?_, by omega⟩
    rw [abs_of_nonneg (by omega)]
    exact lt_of_le_of_lt (k4.trans (le_abs_self M)) e2
  · exfalso
    rw [BinPar.zpow_eq_int_mul he.le, ← mul_assoc] at key
    have k2 : ((N * N : ℤ) : ℚ) = (M * 2 ^ (E - 2 * f).toNat : ℤ) := by
      have := mul_right_cancel₀ (two_zpow_pos (2 * f)).ne' key
      push_cast at this ⊢
      exact this
    have k3 : (N * N : ℤ) = M * 2 ^ (E - 2 * f).toNat := by exact_mod_cast k2
    have o : Odd ((N : ℤ) * N) := by
      have : Odd (N : ℤ) := by exact_mod_cast hN
      exact this.mul this
    rw [k3] at o
    have ev : Even (M * (2 : ℤ) ^ (E - 2 * f).toNat) := Even.mul_left (Even.pow_of_ne_zero even_two (by omega)) _
    exact (Int.not_odd_iff_even.2 ev) o

theorem Sc.sqrt {s : Flt P.fmt → Flt P.fmt} (hs : CorrectSqrt P s) {k : ℕ} {x x' : Flt P.fmt} (hx : Sc (k + k) x x') (hn : P.Normal x.val)
    (h0 : 0 ≤ x.val) : Sc k (s x) (s x') := by
  obtain ⟨fx, fx', ex⟩ := hx
  obtain ⟨rx, hx1⟩ := Flt.eq_fin fx
  obtain ⟨rx', hx1'⟩ := Flt.eq_fin fx'
  have h0' : 0 ≤ x'.val := by rw [ex]; positivity
  obtain ⟨r, hr, er, nr⟩ := hs.fin x.val rx h0
  obtain ⟨r', hr', er', nr'⟩ := hs.fin x'.val rx' h0'
  have r0 := nearest_nonneg nr
  have r0' := nearest_nonneg nr'
  rw [hx1, hx1', er, er']
  refine ⟨trivial, trivial, ?_⟩
  show r' = 2 ^ k * r
  set a := x.val with ha
  set t := Real.sqrt (a : ℝ) with ht
  have t0 : 0 ≤ t := Real.sqrt_nonneg _
  have tt : t * t = a := Real.mul_self_sqrt (by exact_mod_cast h0)
  have K0 : (0 : ℝ) < 2 ^ k := by positivity
  have K1 : (1 : ℝ) ≤ 2 ^ k := one_le_pow₀ (by norm_num)
  have T : Real.sqrt (x'.val : ℝ) = 2 ^ k * t := by
    rw [ex]
    push_cast
    rw [pow_add, Real.sqrt_mul (by positivity), Real.sqrt_mul_self K0.le]
  rw [T] at nr'
  have B4 : (4 : ℝ) ≤ P.bound := by
    have : (4 : ℚ) ≤ P.bound := by
      unfold BinPar.bound
      have h1 := P.hp
      have h2 := P.hmax
      calc (4 : ℚ) = 2 ^ (2 : ℤ) := by norm_num
        _ ≤ _ := zpow_le_zpow_right₀ (by norm_num) (by omega)
    exact_mod_cast this
  have TB : (2 ^ k * t) * (2 ^ k * t) < (P.bound : ℝ) := by
    have h1 : x'.val < P.bound := lt_of_le_of_lt (le_abs_self _) rx'.2
    have h2 : ((x'.val : ℚ) : ℝ) < (P.bound : ℝ) := by exact_mod_cast h1
    have h3 := Real.mul_self_sqrt (show (0 : ℝ) ≤ (x'.val : ℝ) by exact_mod_cast h0')
    rw [T] at h3
    linarith
  have TB2 : 2 * (2 ^ k * t) < (P.bound : ℝ) := by
    by_contra hc
    have h1 : (P.bound : ℝ) / 2 ≤ 2 ^ k * t := by linarith [not_lt.1 hc]
    have h2 := mul_le_mul h1 h1 (by linarith) (by positivity)
    nlinarith
  by_cases a0 : a = 0
  · have t00 : t = 0 := by rw [ht, a0]; simp
    have h1 := nr 0 P.fmt.rep_zero
    have h2 := nr' 0 P.fmt.rep_zero
    rw [t00] at h1
    rw [t00, mul_zero] at h2
    simp only [sub_zero, Rat.cast_zero, abs_zero, abs_nonpos_iff, Rat.cast_eq_zero] at h1 h2
    rw [h1, h2, mul_zero]
  have hn := hn.resolve_left a0
  set μ : ℚ := 2 ^ (P.qmin + P.p - 1) with hμ
  have μ0 : 0 < μ := two_zpow_pos _
  have μ1 : μ ≤ 1 := by
    have h1 := P.hmin
    have h2 := P.hp
    rw [hμ]
    exact zpow_le_one_of_nonpos₀ (by norm_num) (by omega)
  rw [abs_of_nonneg h0] at hn
  have μt : (μ : ℝ) ≤ t := by
    rw [ht]
    apply Real.le_sqrt_of_sq_le
    have h1 : μ ^ 2 ≤ a := by nlinarith
    exact_mod_cast h1
  have rμ : P.Rep μ := by
    refine ⟨1, P.qmin + P.p - 1, by rw [hμ]; simp, ?_, by have := P.hp; omega⟩
    rw [abs_one]
    exact one_lt_pow₀ (by norm_num) (by have := P.hp; omega)
  -- the scaled root is large enough to be scaled back
  have h1 : 2 ^ k * μ ≤ r' := by
    by_contra hc
    have hc := not_le.1 hc
    have hcR : (r' : ℝ) < 2 ^ k * μ := by exact_mod_cast hc
    have hle : (2 : ℝ) ^ k * μ ≤ 2 ^ k * t := mul_le_mul_of_nonneg_left μt K0.le
    have hb : |2 ^ k * μ| < P.bound := by
      rw [abs_of_nonneg (by positivity)]
      have : ((2 ^ k * μ : ℚ) : ℝ) < (P.bound : ℝ) := by push_cast; nlinarith
      exact_mod_cast this
    have h2 := nr' (2 ^ k * μ) ⟨rep_scale k rμ, hb⟩
    push_cast at h2
    rw [abs_of_nonpos (by linarith), abs_of_nonpos (by linarith)] at h2
    linarith
  set q : ℚ := r' / 2 ^ k with hq
  have qr : r' = 2 ^ k * q := by rw [hq]; field_simp
  have hqμ : μ ≤ q := by
    rw [qr] at h1
    exact le_of_mul_le_mul_left h1 (by positivity)
  have q0 : 0 < q := lt_of_lt_of_le μ0 hqμ
  have rq : P.Rep q := by
    have h2 := fl_scale (P := P) k (q := q) (Or.inr (by rw [abs_of_pos q0]; exact hqμ))
    rw [← qr, P.fl_rep hr'.1, qr] at h2
    have h3 : q = P.fl q := mul_left_cancel₀ (by positivity) h2
    rw [h3]
    exact P.rep_fl q
  have rqb : |q| < P.bound := by
    refine lt_of_le_of_lt ?_ hr'.2
    rw [qr, abs_of_pos q0, abs_of_pos (by positivity)]
    nlinarith [one_le_pow2 k]
  have r2 : (r : ℝ) ≤ 2 * t := by
    have h2 := nr 0 P.fmt.rep_zero
    rw [Rat.cast_zero, zero_sub, abs_neg, abs_of_nonneg t0] at h2
    linarith [(abs_le.1 h2).2]
  have rkb : |2 ^ k * r| < P.bound := by
    rw [abs_of_nonneg (by positivity)]
    have : ((2 ^ k * r : ℚ) : ℝ) < (P.bound : ℝ) := by
      push_cast
      have := mul_le_mul_of_nonneg_left r2 K0.le
      linarith
    exact_mod_cast this
  have n1 := nr q ⟨rq, rqb⟩
  have n2 := nr' (2 ^ k * r) ⟨rep_scale k hr.1, rkb⟩
  have n3 : |(q : ℝ) - t| ≤ |(r : ℝ) - t| := by
    rw [qr] at n2
    push_cast at n2
    rw [← mul_sub, ← mul_sub, abs_mul, abs_mul] at n2
    exact le_of_mul_le_mul_left n2 (abs_pos.2 K0.ne')
  rcases abs_eq_abs.1 (le_antisymm n3 n1) with e | e
  · have : (q : ℝ) = r := by linarith
    have : q = r := by exact_mod_cast this
    rw [qr, this]
  · obtain ⟨c1, hc1⟩ := rep_eta hr.1
    obtain ⟨c2, hc2⟩ := rep_eta rq
    set m : ℚ := (r + q) / 2 with hm
    have mt : (m : ℝ) = t := by rw [hm]; push_cast; linarith
    have mm : m * m = a := by
      have : ((m * m : ℚ) : ℝ) = (a : ℝ) := by push_cast; rw [mt, tt]
      exact_mod_cast this
    have m0 : 0 < m := by rw [hm]; linarith
    have mr : P.Rep m := by
      refine rep_root (c := c1 + c2) rx.1 ?_ m0 mm
      rw [hm, hc1, hc2, sub_eq_add_neg, zpow_add2]
      push_cast
      norm_num
      ring
    have mb : |m| < P.bound := by
      rw [abs_of_pos m0]
      have : (m : ℝ) < (P.bound : ℝ) := by rw [mt]; nlinarith
      exact_mod_cast this
    have n4 := nr m ⟨mr, mb⟩
    rw [mt, sub_self, abs_zero, abs_nonpos_iff] at n4
    have : (q : ℝ) = r := by linarith
    have : q = r := by exact_mod_cast this
    rw [qr, this]

end FltSc
end vm
