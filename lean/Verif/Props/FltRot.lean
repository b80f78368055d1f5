import Verif.Lemmas.FltRot
import Verif.Props.FltAngle
import Verif.Props.FltLength

/-! C130: rotation matrices from an axis and an angle, and from Euler angles, in IEEE arithmetic. -/

set_option linter.unusedSectionVars false
set_option linter.unusedSimpArgs false

namespace vm
variable {P : BinPar}

namespace FltRot
variable {sn cs : Flt P.fmt → Flt P.fmt}

/-! ### There are accurate functions -/

/-- A number of the format next to a real number of size at most four. -/
theorem near_exists (hp : 10 ≤ P.p) {y : ℝ} (h1 : |y| ≤ 4) :
    ∃ x : Flt P.fmt, x.isFinite ∧ |(x.val : ℝ) - y| ≤ 2 * P.u * |y| + P.eta ∧ (|y| ≤ 1 → |x.val| ≤ 1) ∧ (0 ≤ y → 0 ≤ x.val) := by
  have ok := ok_one hp
  have u0 := Ap.u_pos P
  have hu := ok.u
  have key : ∀ y : ℝ, 0 ≤ y → ∃ q : ℚ, 0 ≤ q ∧ (q : ℝ) ≤ y ∧ |(q : ℝ) - y| ≤ P.u / 4 * |y| := by
    intro y h0
    rcases h0.eq_or_lt with rfl | h0
    · exact ⟨0, le_rfl, by simp, by simp⟩
    · obtain ⟨q, hq1, hq2⟩ := exists_rat_btwn (show (1 - P.u / 4) * y < y by nlinarith)
      have : (0 : ℝ) < q := lt_of_le_of_lt (mul_nonneg (by linarith) h0.le) hq1
      refine ⟨q, by exact_mod_cast this.le, hq2.le, ?_⟩
      rw [abs_of_pos h0]
      exact abs_le.2 ⟨by linarith, by nlinarith⟩
  have key2 : ∃ q : ℚ, |(q : ℝ)| ≤ |y| ∧ |(q : ℝ) - y| ≤ P.u / 4 * |y| ∧ (0 ≤ y → 0 ≤ q) := by
    rcases le_total 0 y with h | h
    · obtain ⟨q, a, b, c⟩ := key y h
      exact ⟨q, by rw [abs_of_nonneg h, abs_of_nonneg (by exact_mod_cast a)]; exact b, c, fun _ => a⟩
    · obtain ⟨q, a, b, c⟩ := key (-y) (by linarith)
      refine ⟨-q, ?_, ?_, fun h' => ?_⟩
      · push_cast
        rw [abs_neg, abs_of_nonpos h, abs_of_nonneg (by exact_mod_cast a)]; exact b
      · rw [abs_neg] at c
        push_cast
        rw [show -(q : ℝ) - y = -((q : ℝ) - -y) by ring, abs_neg]
        exact c
      · have : y = 0 := le_antisymm h h'
        subst this
        simp at c
        rw [c]; simp
  obtain ⟨q, q1, q2, q3⟩ := key2
  have hf : |P.fl q| < P.bound := by
    refine fl_lt_bound ?_
    have : (64 : ℝ) * 1 < P.bound := ok.bound
    have : 2 * |(q : ℝ)| + 1 < P.bound := by linarith
    exact_mod_cast this
  have f : (Flt.round q : Flt P.fmt).isFinite := Flt.round_finite.2 hf
  have v : (Flt.round q : Flt P.fmt).val = P.fl q := Flt.round_val f
  refine ⟨_, f, ?_, fun hy => ?_, fun h => by rw [v]; exact P.fl_nonneg (q3 h)⟩
  · rw [v]
    have e := Ap.fl_err_real P q
    have k1 := abs_le.1 q2
    have k2 := abs_le.1 e
    have y0 := abs_nonneg y
    have m1 : P.u * |(q : ℝ)| ≤ P.u * |y| := mul_le_mul_of_nonneg_left q1 u0.le
    have uy : 0 ≤ P.u * |y| := mul_nonneg u0.le y0
    exact abs_le.2 ⟨by linarith, by linarith⟩
  · rw [v]
    have : |(q : ℝ)| ≤ 1 := q1.trans hy
    have : |q| ≤ 1 := by exact_mod_cast this
    exact abs_le.2 ⟨P.le_fl_of_rep P.rep_one.neg (abs_le.1 this).1, P.fl_le_of_rep P.rep_one (abs_le.1 this).2⟩

/-- There are accurate functions; they can be taken exact at zero and of size at most one. -/
theorem exists_accurate (hp : 10 ≤ P.p) : ∃ sn cs : Flt P.fmt → Flt P.fmt, AccurateTrig P sn cs ∧ sn 0 = 0 ∧ cs 0 = 1 ∧
    (∀ x, x.isFinite → |(cs x).val| ≤ 1) ∧ ∀ x, x.isFinite → 0 ≤ Real.cos x.val → 0 ≤ (cs x).val := by
  classical
  have hs : ∀ x : Flt P.fmt, ∃ s : Flt P.fmt, s.isFinite ∧ |(s.val : ℝ) - Real.sin x.val| ≤ 2 * P.u * |Real.sin x.val| + P.eta := fun x => by
    obtain ⟨s, a, b, -⟩ := near_exists hp ((Real.abs_sin_le_one x.val).trans (by norm_num))
    exact ⟨s, a, b⟩
  have hc : ∀ x : Flt P.fmt, ∃ s : Flt P.fmt, s.isFinite ∧ |(s.val : ℝ) - Real.cos x.val| ≤ 2 * P.u * |Real.cos x.val| + P.eta ∧ |s.val| ≤ 1 ∧
      (0 ≤ Real.cos x.val → 0 ≤ s.val) := fun x => by
    obtain ⟨s, a, b, c, d⟩ := near_exists hp ((Real.abs_cos_le_one x.val).trans (by norm_num))
    exact ⟨s, a, b, c (Real.abs_cos_le_one x.val), d⟩
  choose f hf using hs
  choose g hg using hc
  have u0 := Ap.u_pos P
  have e0 : (0 : ℝ) ≤ P.eta := by exact_mod_cast (Er.eta_pos P).le
  refine ⟨fun x => if x = 0 then 0 else f x, fun x => if x = 0 then 1 else g x, ⟨?_, ?_, ?_, ?_⟩, by simp, by simp, ?_, ?_⟩
  all_goals intro x hx; by_cases h : x = 0
  · simp only [h, if_true]; trivial
  · simp only [h, if_false]; exact (hf x).1
  · simp only [h, if_true]; trivial
  · simp only [h, if_false]; exact (hg x).1
  · simp only [h, if_true, Flt.zero_val]; simpa using e0
  · simp only [h, if_false]; exact (hf x).2
  · simp only [h, if_true, Flt.zero_val, Flt.one_val]; simp; positivity
  · simp only [h, if_false]; exact (hg x).2.1
  · simp only [h, if_true, Flt.one_val]; simp
  · simp only [h, if_false]; exact (hg x).2.2.1
  · simp only [h, if_true, Flt.one_val]; simp
  · simp only [h, if_false]; exact (hg x).2.2.2

/-! ### Euler angles -/

theorem mmul4 (a b : Mat (Flt P.fmt) 4 4) (c r : Fin 4) :
    mmul a b c r = a 0 r * b c 0 + a 1 r * b c 1 + a 2 r * b c 2 + a 3 r * b c 3 := by
  simp only [mmul, Fin.foldl_succ_last, Fin.foldl_zero]
  rw [Flt.zero_add']
  rfl

theorem yp_eq {Cy Sy Cp Sp : Flt P.fmt} (h1 : Cy.isFinite) (h2 : Sy.isFinite) (h3 : Cp.isFinite) (h4 : Sp.isFinite) :
    mmul (lin4 Cy (-Sy) 0 Sy Cy 0 0 0 1) (lin4 Cp 0 Sp 0 1 0 (-Sp) 0 Cp) = lin4 (Cy * Cp) (-Sy) (Cy * Sp) (Sy * Cp) Cy (Sy * Sp) (-Sp) 0 Cp := by
  have n2 := Flt.neg_finite.2 h2
  have n4 := Flt.neg_finite.2 h4
  have o : (1 : Flt P.fmt).isFinite := trivial
  have z : (0 : Flt P.fmt).isFinite := trivial
  apply ext4; intro x y
  rw [mmul4]
  fin_cases x <;> fin_cases y <;>
    simp [lin4, Flt.zero_mul_fin, Flt.mul_zero_fin, Flt.mul_one', Flt.one_mul', Flt.zero_add', Flt.add_zero', *]

theorem ypr_eq {a b c d e f g i Cr Sr : Flt P.fmt} (h1 : a.isFinite) (h2 : b.isFinite) (h3 : c.isFinite) (h4 : d.isFinite) (h5 : e.isFinite)
    (h6 : f.isFinite) (h7 : g.isFinite) (h8 : i.isFinite) (h9 : Cr.isFinite) (h10 : Sr.isFinite) :
    mmul (lin4 a b c d e f g 0 i) (lin4 1 0 0 0 Cr (-Sr) 0 Sr Cr) =
      lin4 a (b * Cr + c * Sr) (b * -Sr + c * Cr) d (e * Cr + f * Sr) (e * -Sr + f * Cr) g (i * Sr) (i * Cr) := by
  have n10 := Flt.neg_finite.2 h10
  have o : (1 : Flt P.fmt).isFinite := trivial
  have z : (0 : Flt P.fmt).isFinite := trivial
  apply ext4; intro x y
  rw [mmul4]
  fin_cases x <;> fin_cases y <;>
    simp [lin4, Flt.zero_mul_fin, Flt.mul_zero_fin, Flt.mul_one', Flt.one_mul', Flt.zero_add', Flt.add_zero', *]

theorem rpy_entries (hp : 10 ≤ P.p) (hT : AccurateTrig P sn cs) {r p y : Flt P.fmt} (hr : r.isFinite) (hq : p.isFinite) (hy : y.isFinite) :
    (∀ x z, Ap 1 16 2.1 (rotationMatrixRPYG sn cs r p y x z) (rotationMatrixRPY r.val p.val y.val x z)) ∧
    rotationMatrixRPYG sn cs r p y 3 = ![0, 0, 0, 1] ∧ ∀ c : Fin 3, rotationMatrixRPYG sn cs r p y c.castSucc 3 = 0 := by
  have ok := ok_one hp
  have Cr := cos_ap hp hT hr
  have Sr := sin_ap hp hT hr
  have Cp := cos_ap hp hT hq
  have Sp := sin_ap hp hT hq
  have Cy := cos_ap hp hT hy
  have Sy := sin_ap hp hT hy
  have m2 : ∀ {a b : Flt P.fmt} {a' b' : ℝ}, Ap 1 2.0005 1.003 a a' → Ap 1 2.0005 1.003 b b' → Ap 1 5.03 1.008 (a * b) (a' * b') := fun h h' =>
    (Ap.mul ok h h' (by norm_num) (by norm_num) (by norm_num) (by norm_num) (by norm_num)).mono zero_le_one (by norm_num) (by norm_num)
  have m3 : ∀ {a b : Flt P.fmt} {a' b' : ℝ}, Ap 1 5.03 1.008 a a' → Ap 1 2.0005 1.003 b b' → Ap 1 8.1 1.013 (a * b) (a' * b') := fun h h' =>
    (Ap.mul ok h h' (by norm_num) (by norm_num) (by norm_num) (by norm_num) (by norm_num)).mono zero_le_one (by norm_num) (by norm_num)
  have ad : ∀ {a b : Flt P.fmt} {a' b' : ℝ}, Ap 1 5.03 1.008 a a' → Ap 1 8.1 1.013 b b' → Ap 1 16 2.1 (a + b) (a' + b') := fun h h' =>
    (Ap.add ok h h' (by norm_num)).mono zero_le_one (by norm_num) (by norm_num)
  have w1 : ∀ {a : Flt P.fmt} {a' : ℝ}, Ap 1 2.0005 1.003 a a' → Ap 1 16 2.1 a a' := fun h => h.mono zero_le_one (by norm_num) (by norm_num)
  have w2 : ∀ {a : Flt P.fmt} {a' : ℝ}, Ap 1 5.03 1.008 a a' → Ap 1 16 2.1 a a' := fun h => h.mono zero_le_one (by norm_num) (by norm_num)
  have e : ∀ a b c d e f g h i : Flt P.fmt, (![![a,d,g,0],![b,e,h,0],![c,f,i,0],![0,0,0,1]] : Mat (Flt P.fmt) 4 4)
    = lin4 a b c d e f g h i := fun _ _ _ _ _ _ _ _ _ => rfl
  have E : rotationMatrixRPYG sn cs r p y = lin4 (cs y * cs p) (-sn y * cs r + cs y * sn p * sn r) (-sn y * -sn r + cs y * sn p * cs r)
      (sn y * cs p) (cs y * cs r + sn y * sn p * sn r) (cs y * -sn r + sn y * sn p * cs r) (-sn p) (cs p * sn r) (cs p * cs r) := by
    simp only [rotationMatrixRPYG, mat4, e]
    rw [yp_eq Cy.fin Sy.fin Cp.fin Sp.fin, ypr_eq (m2 Cy Cp).fin (Flt.neg_finite.2 Sy.fin) (m2 Cy Sp).fin (m2 Sy Cp).fin Cy.fin (m2 Sy Sp).fin
      (Flt.neg_finite.2 Sp.fin) Cp.fin Cr.fin Sr.fin]
  rw [E]
  refine ⟨fun x z => ?_, rfl, fun c => by fin_cases c <;> rfl⟩
  have R : rotationMatrixRPY r.val p.val y.val = lin4
      (Real.cos y.val * Real.cos p.val) (-Real.sin y.val * Real.cos r.val + Real.cos y.val * Real.sin p.val * Real.sin r.val)
      (-Real.sin y.val * -Real.sin r.val + Real.cos y.val * Real.sin p.val * Real.cos r.val)
      (Real.sin y.val * Real.cos p.val) (Real.cos y.val * Real.cos r.val + Real.sin y.val * Real.sin p.val * Real.sin r.val)
      (Real.cos y.val * -Real.sin r.val + Real.sin y.val * Real.sin p.val * Real.cos r.val)
      (-Real.sin p.val) (Real.cos p.val * Real.sin r.val) (Real.cos p.val * Real.cos r.val) := by
    rw [rpy_lin4]
    congr 1 <;> ring
  rw [R]
  exact lin4_ap (by norm_num) (by norm_num) (w2 (m2 Cy Cp)) (ad (m2 Sy.neg Cr) (m3 (m2 Cy Sp) Sr)) (ad (m2 Sy.neg Sr.neg) (m3 (m2 Cy Sp) Cr))
    (w2 (m2 Sy Cp)) (ad (m2 Cy Cr) (m3 (m2 Sy Sp) Sr)) (ad (m2 Cy Sr.neg) (m3 (m2 Sy Sp) Cr)) (w1 Sp.neg) (w2 (m2 Cp Sr)) (w2 (m2 Cp Cr)) x z

/-! ### The entry of the axis -/

theorem fl_one_sub (P : BinPar) : P.fl (1 - P.u / 2) = 1 := by
  have hu := P.u_pos
  have hu8 := P.u_le
  have hp := P.hp
  have eu : P.u = 2 ^ (-(P.p : ℤ)) := rfl
  have e : (2 : ℚ) ^ P.p * 2 ^ (-(P.p : ℤ)) = 1 := by
    rw [← zpow_natCast, ← zpow_add₀ (by norm_num), add_neg_cancel, zpow_zero]
  have h := BinPar.fl_eval_even (P := P) (q := 1 - P.u / 2) (-(P.p : ℤ)) (2 ^ P.p) (by have := P.hmin; omega) ?_ ?_ ?_ ?_
  · rw [h]; push_cast; exact e
  · rw [abs_of_pos (by linarith)]
    have : -(P.p : ℤ) + P.p - 1 = -1 := by ring
    rw [this, zpow_neg_one]; linarith
  · rw [abs_of_pos (by linarith)]
    have : -(P.p : ℤ) + P.p = 0 := by ring
    rw [this, zpow_zero]; linarith
  · have h1 : (1 - P.u / 2) / 2 ^ (-(P.p : ℤ)) = 2 ^ P.p - 1 / 2 := by
      have h2 := BinPar.two_zpow_pos (-(P.p : ℤ))
      rw [div_eq_iff h2.ne', sub_mul, e, eu]; ring
    rw [h1]; push_cast
    norm_num
  · obtain ⟨k, hk⟩ : ∃ k, P.p = k + 1 := ⟨P.p - 1, by omega⟩
    rw [hk, pow_succ]; omega

/-- Rounding to a multiple of a power of two. -/
theorem near_multiple {y : ℚ} {e : ℤ} (he : P.qmin ≤ e) (h0 : 0 ≤ y) (h : y ≤ 2 ^ (e + P.p)) : |P.fl y - y| ≤ 2 ^ e / 2 := by
  have h2 := BinPar.two_zpow_pos e
  have hr := abs_sub_round (y / 2 ^ e)
  have hn : 0 ≤ _root_.round (y / 2 ^ e) := by
    by_contra hc
    push Not at hc
    have h3 : ((_root_.round (y / 2 ^ e) : ℤ) : ℚ) ≤ -1 := by exact_mod_cast (by omega : _root_.round (y / 2 ^ e) ≤ -1)
    have h4 : 0 ≤ y / 2 ^ e := div_nonneg h0 h2.le
    have := (abs_le.1 hr).2
    linarith
  have hle : _root_.round (y / 2 ^ e) ≤ (2 : ℤ) ^ P.p := by
    by_contra hc
    push Not at hc
    have h3 : (2 : ℚ) ^ P.p + 1 ≤ ((_root_.round (y / 2 ^ e) : ℤ) : ℚ) := by exact_mod_cast hc
    have h4 : y / 2 ^ e ≤ 2 ^ P.p := by
      rw [div_le_iff₀ h2, ← zpow_natCast, ← zpow_add₀ (by norm_num), add_comm]; exact h
    have := (abs_le.1 hr).1
    linarith
  have rep : P.Rep ((_root_.round (y / 2 ^ e) : ℤ) * 2 ^ e) := by
    refine P.rep_multiple he ?_ rfl
    rw [abs_of_nonneg (mul_nonneg (by exact_mod_cast hn) h2.le), zpow_add₀ (by norm_num), mul_comm, zpow_natCast]
    exact mul_le_mul_of_nonneg_left (by exact_mod_cast hle) h2.le
  refine (P.fl_nearest rep y).trans ?_
  have : ((_root_.round (y / 2 ^ e) : ℤ) : ℚ) * 2 ^ e - y = -((y / 2 ^ e - _root_.round (y / 2 ^ e)) * 2 ^ e) := by field_simp; ring
  rw [this, abs_neg, abs_mul, abs_of_pos h2]
  have := mul_le_mul_of_nonneg_right hr h2.le
  linarith

/-- `1 - c + c` in floating point arithmetic. -/
theorem diag {c : ℚ} (h1 : |c| ≤ 1) : 1 - P.u ≤ P.fl (P.fl (1 - c) + c) ∧ P.fl (P.fl (1 - c) + c) ≤ 1 ∧
    (0 ≤ c → P.fl (P.fl (1 - c) + c) = 1) := by
  have hu := P.u_pos
  have hu8 := P.u_le
  have hp := P.hp
  have hmin := P.hmin
  have eu : P.u = 2 ^ (-(P.p : ℤ)) := rfl
  have eu2 : 2 ^ (1 - (P.p : ℤ)) = 2 * P.u := by
    rw [eu, sub_eq_add_neg, zpow_add₀ (by norm_num), zpow_one]
  obtain ⟨l1, l2⟩ := abs_le.1 h1
  have err : |P.fl (1 - c) - (1 - c)| ≤ P.u := by
    have := near_multiple (P := P) (y := 1 - c) (e := 1 - P.p) (by omega) (by linarith) (by
      rw [show (1 : ℤ) - P.p + P.p = 1 by ring, zpow_one]; linarith)
    rw [eu2] at this
    linarith
  have up : P.fl (P.fl (1 - c) + c) ≤ 1 := by
    have := P.fl_mono (show P.fl (1 - c) + c ≤ 1 + P.u by linarith [(abs_le.1 err).2])
    rwa [vm.fl_one_add] at this
  refine ⟨?_, up, fun h0 => le_antisymm up ?_⟩
  · have r : P.Rep (1 - P.u) := by
      refine P.rep_multiple (e := -(P.p : ℤ)) (by omega) ?_ (m := 2 ^ P.p - 1) ?_
      · rw [neg_add_cancel, zpow_zero, abs_of_pos (by linarith)]; linarith
      · push_cast
        rw [sub_mul, ← zpow_natCast, ← zpow_add₀ (by norm_num), add_neg_cancel, zpow_zero, eu, one_mul]
    refine P.le_fl_of_rep r ?_
    linarith [(abs_le.1 err).1]
  · have err2 : -(P.u / 2) ≤ P.fl (1 - c) - (1 - c) := by
      have := near_multiple (P := P) (y := 1 - c) (e := -(P.p : ℤ)) (by omega) (by linarith) (by
        rw [neg_add_cancel, zpow_zero]; linarith)
      rw [← eu] at this
      linarith [(abs_le.1 this).1]
    have := P.fl_mono (show 1 - P.u / 2 ≤ P.fl (1 - c) + c by linarith)
    rwa [fl_one_sub] at this

/-- A length bound from a unit vector. -/
theorem unit_le {a : Vec ℝ 3} (h : length a = 1) (i : Fin 3) : |a i| ≤ 1 := by
  have e : a 0 * a 0 + a 1 * a 1 + a 2 * a 2 = 1 := by
    have := length_sq a
    rw [h, dot3] at this
    linarith
  apply abs_le_of_sq_le_sq _ zero_le_one
  have := mul_self_nonneg (a 0); have := mul_self_nonneg (a 1); have := mul_self_nonneg (a 2)
  fin_cases i
  · show a 0 ^ 2 ≤ _; nlinarith
  · show a 1 ^ 2 ≤ _; nlinarith
  · show a 2 ^ 2 ≤ _; nlinarith

theorem axis_last (v : Vec (Flt P.fmt) 3) (t : Flt P.fmt) : rotationMatrixAxisG sn cs v t 3 = ![0, 0, 0, 1] ∧
    ∀ c : Fin 3, rotationMatrixAxisG sn cs v t c.castSucc 3 = 0 := by
  rw [axisG_eq]
  exact ⟨rfl, fun c => by fin_cases c <;> rfl⟩

theorem axis_error (hp : 10 ≤ P.p) (hT : AccurateTrig P sn cs) {v : Vec (Flt P.fmt) 3} {a : Vec ℝ 3} {t : Flt P.fmt} {ε : ℝ}
    (hv : ∀ i, (v i).isFinite) (ha : length a = 1) (hε : ε ≤ 1 / 100) (hd : ∀ i, |((v i).val : ℝ) - a i| ≤ ε) (ht : t.isFinite) (c r : Fin 4) :
    (rotationMatrixAxisG sn cs v t c r).isFinite ∧
    |((rotationMatrixAxisG sn cs v t c r).val : ℝ) - rotationMatrixAxis a t.val c r| ≤ 15 * P.u + 6 * ε := by
  have e := axis_entries hp hT hv (fun i => ?_) ht c r
  · refine ⟨e.fin, ?_⟩
    have k1 := abs_le.1 e.err
    have k2 := abs_le.1 (axis_perturb hε (unit_le ha) hd t.val c r)
    exact abs_le.2 ⟨by linarith, by linarith⟩
  · have k1 := abs_le.1 (unit_le ha i)
    have k2 := abs_le.1 (hd i)
    exact abs_le.2 ⟨by linarith, by linarith⟩

theorem axis_point (hp : 10 ≤ P.p) (hT : AccurateTrig P sn cs) {v : Vec (Flt P.fmt) 3} {a : Vec ℝ 3} {t : Flt P.fmt} {ε X : ℝ}
    (hv : ∀ i, (v i).isFinite) (ha : length a = 1) (hε : ε ≤ 1 / 100) (hd : ∀ i, |((v i).val : ℝ) - a i| ≤ ε) (ht : t.isFinite)
    (h1 : 1 ≤ X) (hX : 64 * X < P.bound) {p : Vec (Flt P.fmt) 3} (hf : ∀ i, (p i).isFinite) (hpX : ∀ i, |((p i).val : ℝ)| ≤ X) (i : Fin 3) :
    (mmulPoint (rotationMatrixAxisG sn cs v t) p i).isFinite ∧
    |((mmulPoint (rotationMatrixAxisG sn cs v t) p i).val : ℝ) - mmulPoint (rotationMatrixAxis a t.val) (fun j => ((p j).val : ℝ)) i|
      ≤ (54 * P.u + 18 * ε) * X := by
  have u0 := Ap.u_pos P
  have hu := (ok_one hp).u
  have e0 : 0 ≤ ε := (abs_nonneg _).trans (hd 0)
  have hk : (15 + 6 * ε / P.u) * (P.u : ℝ) = 15 * P.u + 6 * ε := by field_simp
  have hE := fun c r => axis_error hp hT hv ha hε hd ht c r
  obtain ⟨f, e⟩ := point_near (ok_of hp h1 hX) (κ := 15 + 6 * ε / P.u) (by positivity) (by rw [hk]; linarith)
    (C43_axis_angle a a 0 t.val ha).1 (fun c r => (hE c r).1) (fun c r => by rw [hk]; exact (hE c r).2) (axis_last v t).1 (axis_last v t).2
    hf hpX i
  refine ⟨f, e.trans (le_of_eq ?_)⟩
  rw [show (3 * (15 + 6 * ε / P.u) + 9) * (P.u : ℝ) * X = (3 * ((15 + 6 * ε / P.u) * P.u) + 9 * P.u) * X by ring, hk]
  ring

end FltRot

open FltRot

/-- C130: with the exact functions the generic functions are the rotations of the exact model. -/
theorem C130_model (a : Vec ℝ 3) (t r p y : ℝ) :
    rotationMatrixAxisG Real.sin Real.cos a t = rotationMatrixAxis a t ∧ rotationMatrixRPYG Real.sin Real.cos r p y = rotationMatrixRPY r p y :=
  ⟨rfl, rfl⟩

section
variable {sn cs : Flt P.fmt → Flt P.fmt}

/-- C130: every entry of `rotation_matrix(axis, angle)` is finite and differs from the entry of the rotation about a unit vector `a` by at most 15
rounding errors and six times the greatest difference between the components of the given axis and of `a`; the translation part and the last
row are exact. -/
theorem C130_axis_error (hp : 10 ≤ P.p) (hT : AccurateTrig P sn cs) {v : Vec (Flt P.fmt) 3} {a : Vec ℝ 3} {t : Flt P.fmt} {ε : ℝ}
    (hv : ∀ i, (v i).isFinite) (ha : length a = 1) (hε : ε ≤ 1 / 100) (hd : ∀ i, |((v i).val : ℝ) - a i| ≤ ε) (ht : t.isFinite) :
    (∀ c r, (rotationMatrixAxisG sn cs v t c r).isFinite ∧
      |((rotationMatrixAxisG sn cs v t c r).val : ℝ) - rotationMatrixAxis a t.val c r| ≤ 15 * P.u + 6 * ε) ∧
    rotationMatrixAxisG sn cs v t 3 = ![0, 0, 0, 1] ∧ ∀ c : Fin 3, rotationMatrixAxisG sn cs v t c.castSucc 3 = 0 :=
  ⟨axis_error hp hT hv ha hε hd ht, (axis_last v t).1, (axis_last v t).2⟩

/-- C130: rotating a point with coordinates of size at most `X`: every coordinate of the result is finite and differs from the one that Rodrigues'
formula for the unit vector `a` gives by at most `(54 u + 18 ε) X`. -/
theorem C130_axis_point (hp : 10 ≤ P.p) (hT : AccurateTrig P sn cs) {v : Vec (Flt P.fmt) 3} {a : Vec ℝ 3} {t : Flt P.fmt} {ε X : ℝ}
    (hv : ∀ i, (v i).isFinite) (ha : length a = 1) (hε : ε ≤ 1 / 100) (hd : ∀ i, |((v i).val : ℝ) - a i| ≤ ε) (ht : t.isFinite)
    (h1 : 1 ≤ X) (hX : 64 * X < P.bound) {p : Vec (Flt P.fmt) 3} (hf : ∀ i, (p i).isFinite) (hpX : ∀ i, |((p i).val : ℝ)| ≤ X) (i : Fin 3) :
    (mmulPoint (rotationMatrixAxisG sn cs v t) p i).isFinite ∧
    |((mmulPoint (rotationMatrixAxisG sn cs v t) p i).val : ℝ) -
      (vscale (fun j => ((p j).val : ℝ)) (Real.cos t.val) + vscale (cross a fun j => ((p j).val : ℝ)) (Real.sin t.val)
        + vscale a (dot a (fun j => ((p j).val : ℝ)) * (1 - Real.cos t.val))) i| ≤ (54 * P.u + 18 * ε) * X := by
  rw [← (C43_axis_angle a (fun j => ((p j).val : ℝ)) 0 t.val ha).2.1]
  exact axis_point hp hT hv ha hε hd ht h1 hX hf hpX i

/-- C130: the squared length of the rotated point differs from that of the point by at most `7 (54 u + 18 ε) X²`. -/
theorem C130_axis_length (hp : 10 ≤ P.p) (hT : AccurateTrig P sn cs) {v : Vec (Flt P.fmt) 3} {a : Vec ℝ 3} {t : Flt P.fmt} {ε X : ℝ}
    (hv : ∀ i, (v i).isFinite) (ha : length a = 1) (hε : ε ≤ 1 / 100) (hd : ∀ i, |((v i).val : ℝ) - a i| ≤ ε) (ht : t.isFinite)
    (h1 : 1 ≤ X) (hX : 64 * X < P.bound) {p q : Vec (Flt P.fmt) 3} (hf : ∀ i, (p i).isFinite) (hpX : ∀ i, |((p i).val : ℝ)| ≤ X)
    (hq : q = mmulPoint (rotationMatrixAxisG sn cs v t) p) :
    |(((q 0).val : ℝ) ^ 2 + ((q 1).val : ℝ) ^ 2 + ((q 2).val : ℝ) ^ 2) - (((p 0).val : ℝ) ^ 2 + ((p 1).val : ℝ) ^ 2 + ((p 2).val : ℝ) ^ 2)|
      ≤ 7 * ((54 * P.u + 18 * ε) * X ^ 2) := by
  have hR := (C43_axis_angle a a 0 t.val ha).1
  have u0 := Ap.u_pos P
  have hu := (ok_one hp).u
  have e0 : 0 ≤ ε := (abs_nonneg _).trans (hd 0)
  set δ := (54 * (P.u : ℝ) + 18 * ε) * X with hδ
  have d0 : 0 ≤ δ := by positivity
  have dX : δ ≤ 0.24 * X := mul_le_mul_of_nonneg_right (by linarith) (by linarith)
  have E : ∀ i, |((q i).val : ℝ) - mmulPoint (rotationMatrixAxis a t.val) (fun j => ((p j).val : ℝ)) i| ≤ δ := fun i => by
    rw [hq]; exact (axis_point hp hT hv ha hε hd ht h1 hX hf hpX i).2
  have N := rot_nsq hR (fun j => ((p j).val : ℝ))
  set R := mmulPoint (rotationMatrixAxis a t.val) (fun j => ((p j).val : ℝ)) with hRdef
  have S : (R 0) ^ 2 + (R 1) ^ 2 + (R 2) ^ 2 ≤ 3 * X ^ 2 := by
    rw [N]
    have s : ∀ i, ((p i).val : ℝ) ^ 2 ≤ X ^ 2 := fun i => by
      have := abs_le.1 (hpX i)
      nlinarith
    linarith [s 0, s 1, s 2]
  rw [show 7 * ((54 * (P.u : ℝ) + 18 * ε) * X ^ 2) = 7 * (δ * X) by rw [hδ]; ring]
  have N' : ((p 0).val : ℝ) ^ 2 + ((p 1).val : ℝ) ^ 2 + ((p 2).val : ℝ) ^ 2 = (R 0) ^ 2 + (R 1) ^ 2 + (R 2) ^ 2 := N.symm
  rw [N']
  obtain ⟨e, he⟩ : ∃ e : Fin 3 → ℝ, ∀ i, ((q i).val : ℝ) = R i + e i := ⟨fun i => ((q i).val : ℝ) - R i, fun i => by ring⟩
  have eb : ∀ i, |e i| ≤ δ := fun i => by
    have := E i
    rwa [he i, add_sub_cancel_left] at this
  have X0 : 0 < X := by linarith
  have es : ∀ i, e i ^ 2 ≤ δ ^ 2 := fun i => by
    have := abs_le.1 (eb i)
    nlinarith
  have dot : |R 0 * e 0 + R 1 * e 1 + R 2 * e 2| ≤ 3 * (δ * X) := by
    apply abs_le_of_sq_le_sq _ (by positivity)
    have cs : (R 0 * e 0 + R 1 * e 1 + R 2 * e 2) ^ 2 ≤ ((R 0) ^ 2 + (R 1) ^ 2 + (R 2) ^ 2) * (e 0 ^ 2 + e 1 ^ 2 + e 2 ^ 2) := by
      nlinarith [sq_nonneg (R 0 * e 1 - R 1 * e 0), sq_nonneg (R 0 * e 2 - R 2 * e 0), sq_nonneg (R 1 * e 2 - R 2 * e 1)]
    refine cs.trans ?_
    calc _ ≤ (3 * X ^ 2) * (3 * δ ^ 2) := mul_le_mul S (by linarith [es 0, es 1, es 2]) (by positivity) (by positivity)
      _ = _ := by ring
  have dd : δ ^ 2 ≤ 0.24 * (δ * X) := by
    have := mul_le_mul_of_nonneg_left dX d0
    linarith
  rw [he 0, he 1, he 2]
  have k := abs_le.1 dot
  have z0 := sq_nonneg (e 0); have z1 := sq_nonneg (e 1); have z2 := sq_nonneg (e 2)
  have w0 := es 0; have w1 := es 1; have w2 := es 2
  have dX0 : 0 ≤ δ * X := by positivity
  have : (R 0 + e 0) ^ 2 + (R 1 + e 1) ^ 2 + (R 2 + e 2) ^ 2 - ((R 0) ^ 2 + (R 1) ^ 2 + (R 2) ^ 2)
      = 2 * (R 0 * e 0 + R 1 * e 1 + R 2 * e 2) + (e 0 ^ 2 + e 1 ^ 2 + e 2 ^ 2) := by ring
  rw [this]
  exact abs_le.2 ⟨by linarith, by linarith⟩

/-- C130: rotating a point and rotating it back by the opposite angle gives the point within `4 (54 u + 18 ε) X`. -/
theorem C130_axis_back (hp : 10 ≤ P.p) (hT : AccurateTrig P sn cs) {v : Vec (Flt P.fmt) 3} {a : Vec ℝ 3} {t : Flt P.fmt} {ε X : ℝ}
    (hv : ∀ i, (v i).isFinite) (ha : length a = 1) (hε : ε ≤ 1 / 100) (hd : ∀ i, |((v i).val : ℝ) - a i| ≤ ε) (ht : t.isFinite)
    (h1 : 1 ≤ X) (hX : 128 * X < P.bound) {p : Vec (Flt P.fmt) 3} (hf : ∀ i, (p i).isFinite) (hpX : ∀ i, |((p i).val : ℝ)| ≤ X) (i : Fin 3) :
    (mmulPoint (rotationMatrixAxisG sn cs v (-t)) (mmulPoint (rotationMatrixAxisG sn cs v t) p) i).isFinite ∧
    |((mmulPoint (rotationMatrixAxisG sn cs v (-t)) (mmulPoint (rotationMatrixAxisG sn cs v t) p) i).val : ℝ) - (p i).val|
      ≤ 4 * ((54 * P.u + 18 * ε) * X) := by
  have hR := (C43_axis_angle a a 0 t.val ha).1
  have hR' := (C43_axis_angle a a 0 (-t.val) ha).1
  have u0 := Ap.u_pos P
  have hu := (ok_one hp).u
  have e0 : 0 ≤ ε := (abs_nonneg _).trans (hd 0)
  have A := fun i => axis_point hp hT hv ha hε hd ht h1 (by linarith) hf hpX i
  set q := mmulPoint (rotationMatrixAxisG sn cs v t) p with hq
  set δ := (54 * (P.u : ℝ) + 18 * ε) * X with hδ
  have d0 : 0 ≤ δ := by positivity
  have dX : δ ≤ 0.24 * X := mul_le_mul_of_nonneg_right (by linarith) (by linarith)
  set R := mmulPoint (rotationMatrixAxis a t.val) (fun j => ((p j).val : ℝ)) with hRd
  have qX : ∀ i, |((q i).val : ℝ)| ≤ 2 * X := fun i => by
    have k1 := abs_le.1 (A i).2
    have k2 := abs_le.1 (rot_le hR (δ := X) (by linarith) hpX i)
    exact abs_le.2 ⟨by linarith, by linarith⟩
  have B := axis_point hp hT hv ha hε hd (Flt.neg_finite.2 ht) (X := 2 * X) (by linarith) (by linarith) (fun i => (A i).1) qX i
  rw [Flt.neg_val] at B
  push_cast at B
  have back : mmulPoint (rotationMatrixAxis a (-t.val)) R = fun j => ((p j).val : ℝ) := by
    have c := (C43_axis_angle a (fun j => ((p j).val : ℝ)) (-t.val) t.val ha)
    obtain ⟨a1, b1, c1, d1, e1, f1, g1, h1, j1, E1, -⟩ := isRotation_lin4 hR
    obtain ⟨a2, b2, c2, d2, e2, f2, g2, h2, j2, E2, -⟩ := isRotation_lin4 hR'
    have m := c.2.2.2.1
    have id := (C43_axis_angle a a 0 (-t.val) ha).2.2.2.2
    rw [neg_neg] at id
    rw [hRd]
    have pid : mmulPoint (matId 4 4) (fun j => ((p j).val : ℝ)) = fun j => ((p j).val : ℝ) := by
      rw [matId_lin4, point_lin4]
      apply ext3 <;> simp
    rw [← id, E1, E2, mmul_lin4, point_lin4] at pid
    rw [E1, E2, point_lin4, point_lin4]
    refine Eq.trans ?_ pid
    apply ext3 <;> simp <;> ring
  have D := rot_sub hR' (fun j => ((q j).val : ℝ)) R i
  rw [back] at D
  have L := rot_le hR' d0 (fun i => (A i).2) i
  rw [← D] at L
  refine ⟨B.1, ?_⟩
  have k1 := abs_le.1 B.2
  have k2 := abs_le.1 L
  have k3 : (54 * (P.u : ℝ) + 18 * ε) * (2 * X) = 2 * δ := by rw [hδ]; ring
  rw [k3] at k1
  exact abs_le.2 ⟨by linarith, by linarith⟩

/-- A finite axis, a finite angle and a point in `double`, with accurate functions. -/
example : ∃ (sn cs : Flt binary64.fmt → Flt binary64.fmt) (v p : Vec (Flt binary64.fmt) 3) (a : Vec ℝ 3) (t : Flt binary64.fmt),
    AccurateTrig binary64 sn cs ∧ (∀ i, (v i).isFinite) ∧ length a = 1 ∧ (0 : ℝ) ≤ 1 / 100 ∧ (∀ i, |((v i).val : ℝ) - a i| ≤ 0) ∧ t.isFinite ∧
    (1 : ℝ) ≤ 1 ∧ 128 * (1 : ℝ) < binary64.bound ∧ (∀ i, (p i).isFinite) ∧ (∀ i, |((p i).val : ℝ)| ≤ 1) ∧ p 0 ≠ 0 ∧ t ≠ 0 := by
  obtain ⟨sn, cs, hT, -⟩ := exists_accurate (P := binary64) (by decide)
  have o : (1 : Flt binary64.fmt) ≠ 0 := fun h => absurd (congrArg Flt.val h) (by rw [Flt.one_val, Flt.zero_val]; norm_num)
  refine ⟨sn, cs, ![0, 0, 1], ![1, 0, 0], ![0, 0, 1], 1, hT, ?_, ?_, by norm_num, ?_, trivial, le_rfl, ?_, ?_, ?_, o, o⟩
  · intro i; fin_cases i <;> trivial
  · have h : length (![0, 0, 1] : Vec ℝ 3) ^ 2 = 1 := by rw [length_sq, dot3]; simp
    have h0 : 0 ≤ length (![0, 0, 1] : Vec ℝ 3) := length_nonneg _
    nlinarith
  · intro i
    fin_cases i
    · show |(((0 : Flt binary64.fmt).val : ℚ) : ℝ) - 0| ≤ 0
      rw [Flt.zero_val]; simp
    · show |(((0 : Flt binary64.fmt).val : ℚ) : ℝ) - 0| ≤ 0
      rw [Flt.zero_val]; simp
    · show |(((1 : Flt binary64.fmt).val : ℚ) : ℝ) - 1| ≤ 0
      rw [Flt.one_val]; simp
  · norm_num [BinPar.bound, binary64]
    exact lt_of_eq_of_lt (by norm_num : (128 : ℝ) = 2 ^ 7) (pow_lt_pow_right₀ (by norm_num) (by norm_num))
  · intro i; fin_cases i <;> trivial
  · intro i
    fin_cases i
    · show |(((1 : Flt binary64.fmt).val : ℚ) : ℝ)| ≤ 1
      rw [Flt.one_val]; simp
    · show |(((0 : Flt binary64.fmt).val : ℚ) : ℝ)| ≤ 1
      rw [Flt.zero_val]; simp
    · show |(((0 : Flt binary64.fmt).val : ℚ) : ℝ)| ≤ 1
      rw [Flt.zero_val]; simp

/-- C130: with the axis that `normalize` gives for a vector, the entries differ from those of the rotation about the direction of the vector by at
most 60 rounding errors, and rotated points by at most `189 u X`. -/
theorem C130_normalized (hp : 10 ≤ P.p) (hT : AccurateTrig P sn cs) {s : Flt P.fmt → Flt P.fmt} (hs : FaithfulSqrt P s) {w : Vec (Flt P.fmt) 3}
    (hw : (squaredLength w).isFinite) (hn : NoUnderflow w) (h0 : 0 < realLen w) {t : Flt P.fmt} (ht : t.isFinite) (X : ℝ) (h1 : 1 ≤ X)
    (hX : 64 * X < P.bound) {p : Vec (Flt P.fmt) 3} (hf : ∀ i, (p i).isFinite) (hpX : ∀ i, |((p i).val : ℝ)| ≤ X) :
    (∀ c r, |((rotationMatrixAxisG sn cs (normalizeG s w) t c r).val : ℝ) -
      rotationMatrixAxis (fun i => ((w i).val : ℝ) / realLen w) t.val c r| ≤ 60 * P.u) ∧
    ∀ i, (mmulPoint (rotationMatrixAxisG sn cs (normalizeG s w) t) p i).isFinite ∧
      |((mmulPoint (rotationMatrixAxisG sn cs (normalizeG s w) t) p i).val : ℝ) -
        mmulPoint (rotationMatrixAxis (fun i => ((w i).val : ℝ) / realLen w) t.val) (fun j => ((p j).val : ℝ)) i| ≤ 189 * P.u * X := by
  have ok := ok_one hp
  have u0 := Ap.u_pos P
  have hu := ok.u
  have he := Ap.eta_small ok
  have hl : P.lenErr 3 ≤ 1 / 50 := by
    have : 1000 * P.u ≤ 1 := by exact_mod_cast hu
    unfold BinPar.lenErr
    push_cast
    linarith
  have hn3 : (P.normErr 3 : ℝ) = 29 / 4 * P.u := by
    unfold BinPar.normErr BinPar.lenErr
    push_cast
    ring
  have sum : ((w 0).val : ℝ) ^ 2 + ((w 1).val : ℝ) ^ 2 + ((w 2).val : ℝ) ^ 2 = realLen w ^ 2 := by
    unfold realLen
    rw [Real.sq_sqrt (Finset.sum_nonneg fun _ _ => sq_nonneg _), Fin.sum_univ_three]
  have le : ∀ i, |((w i).val : ℝ)| / realLen w ≤ 1 := fun i => by
    rw [div_le_one h0]
    apply abs_le_of_sq_le_sq _ h0.le
    have := sq_nonneg ((w 0).val : ℝ); have := sq_nonneg ((w 1).val : ℝ); have := sq_nonneg ((w 2).val : ℝ)
    fin_cases i
    · show ((w 0).val : ℝ) ^ 2 ≤ _; linarith
    · show ((w 1).val : ℝ) ^ 2 ≤ _; linarith
    · show ((w 2).val : ℝ) ^ 2 ≤ _; linarith
  have ha : length (fun i => ((w i).val : ℝ) / realLen w) = 1 := by
    have : length (fun i => ((w i).val : ℝ) / realLen w) ^ 2 = 1 := by
      rw [length_sq, dot3]
      field_simp
      exact sum
    have l0 : 0 ≤ length (fun i => ((w i).val : ℝ) / realLen w) := length_nonneg _
    nlinarith
  have E := fun i => C101_normalize_error P (by norm_num) hl hs w hw hn i
  have hd : ∀ i, |((normalizeG s w i).val : ℝ) - ((w i).val : ℝ) / realLen w| ≤ 7.5 * P.u := fun i => by
    refine (E i).2.trans ?_
    rw [hn3]
    have := mul_le_mul_of_nonneg_left (le i) (by positivity : (0 : ℝ) ≤ 29 / 4 * P.u)
    linarith
  have hv := fun i => (E i).1
  refine ⟨fun c r => (axis_error hp hT hv ha (by linarith) hd ht c r).2.trans (by linarith), fun i => ?_⟩
  obtain ⟨f, e⟩ := axis_point hp hT hv ha (by linarith) hd ht h1 hX hf hpX i
  exact ⟨f, e.trans (le_of_eq (by ring))⟩

/-- The vector (1, -2, 2) can be normalised in `float`. -/
example : ∃ (sn cs s : Flt binary32.fmt → Flt binary32.fmt), AccurateTrig binary32 sn cs ∧ FaithfulSqrt binary32 s ∧
    (squaredLength (sample binary32)).isFinite ∧ NoUnderflow (sample binary32) ∧ 0 < realLen (sample binary32) ∧ 64 * (2 : ℝ) < binary32.bound ∧
    ∀ i, |((sample binary32 i).val : ℝ)| ≤ 2 := by
  obtain ⟨sn, cs, hT, -⟩ := exists_accurate (P := binary32) (by decide)
  obtain ⟨s, hs⟩ := exists_correctSqrt binary32
  obtain ⟨-, h2, h3⟩ := sample32
  refine ⟨sn, cs, s, hT, hs.faithful, h2, h3, ?_, by norm_num [BinPar.bound, binary32], fun i => ?_⟩
  · rw [realLen_eq, sample_sum]
    norm_num
  · obtain ⟨-, h0, h1, h2⟩ := sample_ok binary32
    fin_cases i
    · show |((sample binary32 0).val : ℝ)| ≤ 2
      rw [h0]; norm_num
    · show |((sample binary32 1).val : ℝ)| ≤ 2
      rw [h1]; norm_num
    · show |((sample binary32 2).val : ℝ)| ≤ 2
      rw [h2]; norm_num

/-- C130: the rotation by the angle zero about any finite axis is exactly the identity, if the sine and the cosine of zero are exact. -/
theorem C130_zero (h0 : sn 0 = 0) (h1 : cs 0 = 1) {v : Vec (Flt P.fmt) 3} (hv : ∀ i, (v i).isFinite) :
    rotationMatrixAxisG sn cs v 0 = matId 4 4 ∧ rotationMatrixRPYG sn cs 0 0 0 = matId 4 4 := by
  have nz : (-0 : Flt P.fmt) = 0 := Flt.neg_zero'
  have oo : (1 : Flt P.fmt) - 1 = 0 := by
    refine (Flt.sub_eq Flt.one_finite Flt.one_finite).trans ?_
    rw [sub_self]
    exact Flt.round_of_rep P.fmt.rep_zero
  have z : (0 : Flt P.fmt).isFinite := trivial
  have o : (1 : Flt P.fmt).isFinite := trivial
  have id : (matId 4 4 : Mat (Flt P.fmt) 4 4) = lin4 1 0 0 0 1 0 0 0 1 := by
    apply ext4; intro x y
    fin_cases x <;> fin_cases y <;> rfl
  have e : ∀ a b c d e f g h i : Flt P.fmt, (![![a,d,g,0],![b,e,h,0],![c,f,i,0],![0,0,0,1]] : Mat (Flt P.fmt) 4 4)
    = lin4 a b c d e f g h i := fun _ _ _ _ _ _ _ _ _ => rfl
  constructor
  · rw [axisG_eq, id, nz, h0, h1, oo]
    simp only [Flt.zero_mul_fin (hv _), Flt.sub_zero', Flt.zero_add']
  · simp only [rotationMatrixRPYG, mat4, e, h0, h1]
    rw [yp_eq o z o z, nz, Flt.mul_one', Flt.mul_one', Flt.mul_zero_fin z, Flt.mul_zero_fin o]
    have h := ypr_eq (P := P) o z z z o z z o o z
    rw [nz] at h
    rw [h, id]
    simp only [Flt.mul_one', Flt.mul_zero_fin z, Flt.mul_zero_fin o, Flt.zero_add', Flt.add_zero', Flt.one_mul']

/-- C130: rotating about a coordinate axis changes the coordinate along this axis by at most one rounding error, and keeps it exactly if the
computed cosine is not negative. -/
theorem C130_along (hT : AccurateTrig P sn cs) (h1 : ∀ x, x.isFinite → |(cs x).val| ≤ 1) (k : Fin 3) {t : Flt P.fmt} (ht : t.isFinite)
    {p : Vec (Flt P.fmt) 3} (hf : ∀ i, (p i).isFinite) :
    (∃ m : Flt P.fmt, m.isFinite ∧ 1 - P.u ≤ m.val ∧ m.val ≤ 1 ∧ mmulPoint (rotationMatrixAxisG sn cs (vaxis 3 k) t) p k = m * p k) ∧
    (0 ≤ (cs (-t)).val → mmulPoint (rotationMatrixAxisG sn cs (vaxis 3 k) t) p k = p k) := by
  have hn := Flt.neg_finite.2 ht
  have fc := hT.cos_fin _ hn
  have fs := hT.sin_fin _ hn
  have c1 := h1 _ hn
  obtain ⟨l1, l2⟩ := abs_le.1 c1
  have hb : (32 : ℚ) ≤ P.bound := by
    unfold BinPar.bound
    have := P.hp
    have := P.hmax
    calc (32 : ℚ) = 2 ^ (5 : ℤ) := by norm_num
      _ ≤ _ := zpow_le_zpow_right₀ (by norm_num) (by omega)
  have hu := P.u_pos
  have hu8 := P.u_le
  obtain ⟨d1, d2, d3⟩ := diag (P := P) c1
  have i1 : (1 - cs (-t)).isFinite ∧ (1 - cs (-t)).val = P.fl (1 - (cs (-t)).val) := by
    have e := Flt.sub_eq (P := P) Flt.one_finite fc
    rw [Flt.one_val] at e
    have f : (Flt.round (1 - (cs (-t)).val) : Flt P.fmt).isFinite := Flt.round_finite.2 (fl_lt_bound (by
      rw [abs_of_nonneg (by linarith)]; linarith))
    rw [e]
    exact ⟨f, Flt.round_val f⟩
  have i2 : (1 - cs (-t) + cs (-t)).isFinite ∧ (1 - cs (-t) + cs (-t)).val = P.fl (P.fl (1 - (cs (-t)).val) + (cs (-t)).val) := by
    have e := Flt.add_eq (P := P) i1.1 fc
    rw [i1.2] at e
    have f : (Flt.round (P.fl (1 - (cs (-t)).val) + (cs (-t)).val) : Flt P.fmt).isFinite := Flt.round_finite.2 (by
      rw [abs_of_nonneg (by linarith)]; linarith)
    rw [e]
    exact ⟨f, Flt.round_val f⟩
  have key : mmulPoint (rotationMatrixAxisG sn cs (vaxis 3 k) t) p k = (1 - cs (-t) + cs (-t)) * p k := by
    rw [point_eq _ p hf (axis_last _ t).1 (axis_last _ t).2, axisG_eq]
    have z : (0 : Flt P.fmt).isFinite := trivial
    have h0 := hf 0
    have h1 := hf 1
    have h2 := hf 2
    have fi := i1.1
    fin_cases k <;>
      simp [lin4, vaxis, Flt.zero_mul_fin, Flt.mul_zero_fin, Flt.mul_one', Flt.one_mul', Flt.zero_add', Flt.add_zero', Flt.sub_zero', *]
  refine ⟨⟨_, i2.1, by rw [i2.2]; exact d1, by rw [i2.2]; exact d2, key⟩, fun h => ?_⟩
  have : (1 - cs (-t) + cs (-t)) = 1 := Flt.ext i2.1 Flt.one_finite (by rw [i2.2, d3 h, Flt.one_val])
  rw [key, this, Flt.one_mul']

/-- There are accurate functions that are exact at zero, of size at most one, and have the sign of the cosine. -/
example : ∃ sn cs : Flt binary64.fmt → Flt binary64.fmt, AccurateTrig binary64 sn cs ∧ sn 0 = 0 ∧ cs 0 = 1 ∧
    (∀ x, x.isFinite → |(cs x).val| ≤ 1) ∧ 0 ≤ (cs (-1)).val ∧ (-1 : Flt binary64.fmt) ≠ 0 := by
  obtain ⟨sn, cs, hT, h1, h2, h3, h4⟩ := exists_accurate (P := binary64) (by decide)
  have v : ((-1 : Flt binary64.fmt).val : ℝ) = -1 := by rw [Flt.neg_val, Flt.one_val]; simp
  refine ⟨sn, cs, hT, h1, h2, h3, h4 _ (Flt.neg_finite.2 Flt.one_finite) ?_, fun h => ?_⟩
  · rw [v, Real.cos_neg]
    exact Real.cos_one_pos.le
  · rw [h, Flt.zero_val] at v
    norm_num at v

/-- C130: the entries of `rotation_matrix(roll, pitch, yaw)` differ by at most 16 rounding errors from those of the exact rotation, the translation
part and the last row are exact, and rotated points differ by at most `57 u X`. -/
theorem C130_euler (hp : 10 ≤ P.p) (hT : AccurateTrig P sn cs) {r q y : Flt P.fmt} (hr : r.isFinite) (hq : q.isFinite) (hy : y.isFinite) :
    (∀ c l, (rotationMatrixRPYG sn cs r q y c l).isFinite ∧
      |((rotationMatrixRPYG sn cs r q y c l).val : ℝ) - rotationMatrixRPY r.val q.val y.val c l| ≤ 16 * P.u) ∧
    (rotationMatrixRPYG sn cs r q y 3 = ![0, 0, 0, 1] ∧ ∀ c : Fin 3, rotationMatrixRPYG sn cs r q y c.castSucc 3 = 0) ∧
    ∀ (X : ℝ) (p : Vec (Flt P.fmt) 3), 1 ≤ X → 64 * X < P.bound → (∀ i, (p i).isFinite) → (∀ i, |((p i).val : ℝ)| ≤ X) → ∀ i,
      (mmulPoint (rotationMatrixRPYG sn cs r q y) p i).isFinite ∧
      |((mmulPoint (rotationMatrixRPYG sn cs r q y) p i).val : ℝ) - mmulPoint (rotationMatrixRPY r.val q.val y.val) (fun j => ((p j).val : ℝ)) i|
        ≤ 57 * P.u * X := by
  obtain ⟨e, l1, l2⟩ := rpy_entries hp hT hr hq hy
  have e' : ∀ c l, |((rotationMatrixRPYG sn cs r q y c l).val : ℝ) - rotationMatrixRPY r.val q.val y.val c l| ≤ 16 * P.u := fun c l => by
    have := (e c l).err
    rwa [mul_one] at this
  refine ⟨fun c l => ⟨(e c l).fin, e' c l⟩, ⟨l1, l2⟩, fun X p h1 hX hf hpX i => ?_⟩
  obtain ⟨f, g⟩ := point_near (ok_of hp h1 hX) (κ := 16) (by norm_num) (by linarith [(ok_one hp).u]) (C43_roll_pitch_yaw r.val q.val y.val).1
    (fun c l => (e c l).fin) e' l1 l2 hf hpX i
  exact ⟨f, g.trans (le_of_eq (by ring))⟩

end

namespace FltRot

/-- The cosine near a quarter of a turn. -/
theorem cos_near {h : ℝ} (h1 : 1 / 10 ^ 20 ≤ |Real.pi / 2 - h|) (h2 : |Real.pi / 2 - h| ≤ 1 / 4) :
    1 / 10 ^ 21 ≤ |Real.cos h| ∧ |Real.cos h| ≤ 1 / 4 := by
  have p3 := Real.pi_gt_three
  have p4 := Real.pi_le_four
  have e : |Real.cos h| = Real.sin |Real.pi / 2 - h| := by
    rw [← Real.sin_pi_div_two_sub]
    rcases le_total 0 (Real.pi / 2 - h) with hh | hh
    · rw [abs_of_nonneg hh] at h2 ⊢
      exact abs_of_nonneg (Real.sin_nonneg_of_nonneg_of_le_pi hh (by linarith))
    · rw [abs_of_nonpos hh] at h2 ⊢
      rw [Real.sin_neg]
      refine abs_of_nonpos ?_
      have := Real.sin_nonneg_of_nonneg_of_le_pi (x := -(Real.pi / 2 - h)) (by linarith) (by linarith)
      rw [Real.sin_neg] at this
      linarith
  rw [e]
  have t0 := abs_nonneg (Real.pi / 2 - h)
  refine ⟨?_, (Real.sin_le t0).trans h2⟩
  have := Real.mul_le_sin t0 (by linarith)
  refine le_trans ?_ this
  have : 1 / 2 ≤ 2 / Real.pi := by rw [div_le_div_iff₀ (by norm_num) (by linarith)]; linarith
  calc (1 : ℝ) / 10 ^ 21 ≤ 1 / 2 * (1 / 10 ^ 20) := by norm_num
    _ ≤ 2 / Real.pi * |Real.pi / 2 - h| := mul_le_mul this h1 (by norm_num) (by positivity)

/-- The computed cosine of the constant for a quarter of a turn is neither zero nor of size one. -/
theorem quarter_cos (hP : P = binary32 ∨ P = binary64) {sn cs : Flt P.fmt → Flt P.fmt} (hT : AccurateTrig P sn cs) :
    (cs (-P.halfPi)).isFinite ∧ (cs (-P.halfPi)).val ≠ 0 ∧ |(cs (-P.halfPi)).val| < 1 := by
  have hh := (angle_consts hP).2.1
  have hn := Flt.neg_finite.2 hh.1
  have lo := Real.pi_gt_d20
  have hi := Real.pi_lt_d20
  have hb : 1 / 10 ^ 20 ≤ |Real.pi / 2 - (P.halfPi.val : ℝ)| ∧ |Real.pi / 2 - (P.halfPi.val : ℝ)| ≤ 1 / 4 := by
    rw [hh.2]
    rcases hP with rfl | rfl
    · rw [pi32.2]
      push_cast
      norm_num at lo hi ⊢
      constructor
      · rw [abs_of_nonpos (by linarith)]; linarith
      · exact abs_le.2 ⟨by linarith, by linarith⟩
    · rw [pi64.2]
      push_cast
      norm_num at lo hi ⊢
      constructor
      · rw [abs_of_nonneg (by linarith)]; linarith
      · exact abs_le.2 ⟨by linarith, by linarith⟩
  obtain ⟨k1, k2⟩ := cos_near hb.1 hb.2
  have e := hT.cos_err _ hn
  rw [Flt.neg_val] at e
  push_cast at e
  rw [Real.cos_neg] at e
  have hp : 10 ≤ P.p := by rcases hP with rfl | rfl <;> decide
  have hu := (ok_one hp).u
  have u0 := Ap.u_pos P
  have he : (P.eta : ℝ) ≤ 1 / 10 ^ 22 := by
    have : P.eta ≤ 1 / 10 ^ 22 := by
      have : P.eta ≤ 2 ^ (-80 : ℤ) := by
        unfold BinPar.eta
        exact zpow_le_zpow_right₀ (by norm_num) (by rcases hP with rfl | rfl <;> decide)
      refine this.trans ?_
      norm_num
    have := (Rat.cast_le (K := ℝ)).2 this
    push_cast at this
    exact this
  have m : 2 * P.u * |Real.cos (P.halfPi.val : ℝ)| ≤ 1 / 500 * |Real.cos (P.halfPi.val : ℝ)| :=
    mul_le_mul_of_nonneg_right (by linarith) (abs_nonneg _)
  refine ⟨hT.cos_fin _ hn, fun h0 => ?_, ?_⟩
  · rw [h0] at e
    simp only [Rat.cast_zero, zero_sub, abs_neg] at e
    norm_num at k1 he
    linarith
  · have : |((cs (-P.halfPi)).val : ℝ)| < 1 := by
      have := abs_add_le (((cs (-P.halfPi)).val : ℝ) - Real.cos (P.halfPi.val : ℝ)) (Real.cos (P.halfPi.val : ℝ))
      rw [sub_add_cancel] at this
      norm_num at he
      linarith
    exact_mod_cast this

end FltRot

/-- C130: the rotation about the z axis by `to_radians(90)` does not map the point (1, 0, 0) to (0, 1, 0), nor to any other point with integer
coordinates, in `float` and `double`, however accurate the sine and the cosine are; the constant `rot_90_z_ccw` does. -/
theorem C130_quarter_fails (hP : P = binary32 ∨ P = binary64) {sn cs : Flt P.fmt → Flt P.fmt} (hT : AccurateTrig P sn cs) :
    (mmulPoint (rotationMatrixAxisG sn cs ![0, 0, 1] (toRadians P.pi 90)) ![1, 0, 0] 0).isFinite ∧
    (∀ n : ℤ, (mmulPoint (rotationMatrixAxisG sn cs ![0, 0, 1] (toRadians P.pi 90)) ![1, 0, 0] 0).val ≠ n) ∧
    mmulPoint rot90ZCcw (![1, 0, 0] : Vec (Flt P.fmt) 3) = ![0, 1, 0] := by
  have hf : ∀ i, ((![1, 0, 0] : Vec (Flt P.fmt) 3) i).isFinite := fun i => by fin_cases i <;> trivial
  obtain ⟨q1, q2, q3⟩ := quarter_cos hP hT
  have hn := Flt.neg_finite.2 (angle_consts hP).2.1.1
  have fs := hT.sin_fin _ hn
  have hp : 10 ≤ P.p := by rcases hP with rfl | rfl <;> decide
  have fi : (1 - cs (-P.halfPi)).isFinite := (Ap.sub (ok_one hp) Ap.one (cos_ap hp hT hn) (by norm_num)).fin
  have key : mmulPoint (rotationMatrixAxisG sn cs ![0, 0, 1] (toRadians P.pi 90)) ![1, 0, 0] 0 = cs (-P.halfPi) := by
    rw [(C120_quarter_turns hP).1.2.1, point_eq _ _ hf (axis_last _ _).1 (axis_last _ _).2, axisG_eq]
    have z : (0 : Flt P.fmt).isFinite := trivial
    simp [lin4, Flt.zero_mul_fin, Flt.mul_zero_fin, Flt.mul_one', Flt.one_mul', Flt.zero_add', Flt.add_zero', Flt.sub_zero', *]
  rw [key]
  refine ⟨q1, fun n hn => ?_, ?_⟩
  · rw [hn] at q2 q3
    have a : n ≠ 0 := by exact_mod_cast q2
    have b : |n| < 1 := by exact_mod_cast q3
    exact a (Int.abs_lt_one_iff.1 b)
  · rw [(C103_constants P.fmt _ hf).2.2.2.2.2.1]
    apply ext3 <;> simp [Flt.neg_zero']

end vm
