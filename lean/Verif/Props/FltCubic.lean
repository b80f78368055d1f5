import Verif.Lemmas.FltCubic

/-!
C156: `solve_cubic` in IEEE arithmetic.
-/

set_option linter.unusedSectionVars false
set_option linter.unusedSimpArgs false

namespace vm
variable {P : BinPar}

open FltCub FltRot FltAng

namespace FltCub

theorem depressed_model (nan p q e : ℝ) :
    let sol := solveDepressedG Real.sqrt cbrt Real.arccos Real.cos Real.pi nan (1 / 3) p q e
    sol.1 = (solveDepressed p q e).num ∧
    (∀ x, (solveDepressed p q e).sol 0 = some x → sol.2.1 = x) ∧
    (∀ x, (solveDepressed p q e).sol 1 = some x → sol.2.2.1 = x) ∧
    (∀ x, (solveDepressed p q e).sol 2 = some x → sol.2.2.2 = x) := by
  unfold solveDepressedG solveDepressed
  simp only [Cmp.lt, decide_eq_true_eq]
  split_ifs
  · exact ⟨rfl, fun x h => Option.some.inj h, fun x h => (Option.some_ne_none _ h.symm).elim, fun x h => (Option.some_ne_none _ h.symm).elim⟩
  · exact ⟨rfl, fun x h => Option.some.inj h, fun x h => Option.some.inj h, fun x h => (Option.some_ne_none _ h.symm).elim⟩
  · exact ⟨rfl, fun x h => Option.some.inj h, fun x h => Option.some.inj h, fun x h => Option.some.inj h⟩
  · exact ⟨rfl, fun x h => Option.some.inj h, fun x h => (Option.some_ne_none _ h.symm).elim, fun x h => (Option.some_ne_none _ h.symm).elim⟩

theorem slot_model {n : ℕ} {o : Option ℝ} {v t : ℝ} (k : ℕ) (h : ∀ x, o = some x → v = x) (x : ℝ)
    (hx : (if k < n then o.map fun x => x - t else o) = some x) : (if k < n then v - t else v) = x := by
  split_ifs at hx ⊢ with hk
  · obtain ⟨y, h1, h2⟩ := Option.map_eq_some_iff.1 hx
    rw [h y h1]; exact h2
  · exact h x hx

end FltCub

/-- The program with its parameters replaced by the real numbers is the one of the exact properties: the number of solutions agrees, and
so do the slots that contain a solution. -/
theorem C156_model (nan a b c d e : ℝ) :
    let sol := solveCubicG Real.sqrt cbrt Real.arccos Real.cos Real.pi nan (1 / 3) (1 / 2) (2 / 27) a b c d e
    sol.1 = (solveCubic a b c d e).num ∧
    (∀ x, (solveCubic a b c d e).sol 0 = some x → sol.2.1 = x) ∧
    (∀ x, (solveCubic a b c d e).sol 1 = some x → sol.2.2.1 = x) ∧
    (∀ x, (solveCubic a b c d e).sol 2 = some x → sol.2.2.2 = x) := by
  unfold solveCubicG solveCubic
  simp only
  obtain ⟨h0, h1, h2, h3⟩ := depressed_model nan (1 / 3 * (-(1 / 3) * (b / a) * (b / a) + c / a))
    (1 / 2 * (2 / 27 * (b / a) * (b / a) * (b / a) - 1 / 3 * (b / a) * (c / a) + d / a)) e
  generalize solveDepressedG Real.sqrt cbrt Real.arccos Real.cos Real.pi nan (1 / 3) (1 / 3 * (-(1 / 3) * (b / a) * (b / a) + c / a))
    (1 / 2 * (2 / 27 * (b / a) * (b / a) * (b / a) - 1 / 3 * (b / a) * (c / a) + d / a)) e = S at *
  generalize solveDepressed (1 / 3 * (-(1 / 3) * (b / a) * (b / a) + c / a))
    (1 / 2 * (2 / 27 * (b / a) * (b / a) * (b / a) - 1 / 3 * (b / a) * (c / a) + d / a)) e = S' at *
  unfold resubstituteG resubstitute
  rw [h0]
  exact ⟨rfl, fun x hx => slot_model 0 h1 x hx, fun x hx => slot_model 1 h2 x hx, fun x hx => slot_model 2 h3 x hx⟩

namespace FltCub

variable {s cb ac cs : Flt P.fmt → Flt P.fmt} {pi third p q c d e : Flt P.fmt}

/-- The cases in terms of the computed discriminant. -/
theorem cases_iff (he : e.isFinite) (he0 : 0 ≤ e.val) (hq : q.isFinite) (hD : (q * q + p * p * p).isFinite) :
    solveDepressedG s cb ac cs pi Flt.nan third p q e =
      if |(q * q + p * p * p).val| ≤ e.val then
        if |q.val| ≤ e.val then (1, 0, Flt.nan, Flt.nan) else (2, cb (-q) * 2, -cb (-q), Flt.nan)
      else if (q * q + p * p * p).val < 0 then
        (3, 2 * s (-p) * cs (third * ac (-q / s (-(p * p * p)))), -(2 * s (-p)) * cs (third * ac (-q / s (-(p * p * p))) + pi / 3),
          -(2 * s (-p)) * cs (third * ac (-q / s (-(p * p * p))) - pi / 3))
      else (1, cb (s (q * q + p * p * p) - q) + -cb (s (q * q + p * p * p) + q), Flt.nan, Flt.nan) := by
  unfold solveDepressedG
  simp only [isZero_flt hD he he0, isZero_flt hq he he0, lt_zero_flt hD, decide_eq_true_eq]

theorem sub_zero_cub {x : Flt P.fmt} (h : x.isFinite) : (x - 0).isFinite ∧ (x - 0).val = x.val := by
  have r := Flt.rep_val x
  refine is_sub (P := P) ⟨h, rfl⟩ ⟨Flt.zero_finite, Flt.zero_val⟩ ?_ r.2
  rw [sub_zero]
  exact P.fl_rep r.1

theorem small_u (hP : P = binary32 ∨ P = binary64) : (P.u : ℝ) ≤ 1 / 10 ^ 6 := by
  rcases hP with rfl | rfl
  · have : ((binary32.u : ℚ) : ℝ) = 1 / 2 ^ 24 := by norm_num [BinPar.u, binary32]
    rw [this]; norm_num
  · have : ((binary64.u : ℚ) : ℝ) = 1 / 2 ^ 53 := by norm_num [BinPar.u, binary64]
    rw [this]; norm_num

end FltCub

/-- The number of solutions of `x³ + c x + d = 0` is right unless the discriminant `D` is within rounding distance of the tolerance. -/
theorem C156_decision (P : BinPar) (hP : P = binary32 ∨ P = binary64) (s cb ac cs : Flt P.fmt → Flt P.fmt) (c d e : Flt P.fmt) (h : CubicOk c d)
    (he : e.isFinite) (he0 : 0 ≤ e.val) :
    let M : ℝ := (d.val / 2 : ℝ) ^ 2 + |(c.val / 3 : ℝ)| ^ 3
    let D : ℝ := (d.val / 2 : ℝ) ^ 2 + (c.val / 3 : ℝ) ^ 3
    let sol := solveCubicF P s cb ac cs 1 0 c d e
    (e.val + 18 * P.u * M < D → sol.1 = 1) ∧
    (D < -(e.val + 18 * P.u * M) → sol.1 = 3) ∧
    (|D| + 18 * P.u * M ≤ e.val → (1 + 2 * P.u) * |(d.val / 2 : ℝ)| ≤ e.val → sol.1 = 1) ∧
    (|D| + 18 * P.u * M ≤ e.val → e.val < (1 - 2 * P.u) * |(d.val / 2 : ℝ)| → sol.1 = 2) := by
  intro M D sol
  obtain ⟨-, r2, -, -, f, er⟩ := parts hP h
  have e0 : sol = resubstituteG (solveDepressedG s cb ac cs P.pi Flt.nan (P.literal (1 / 3)) (P.literal (1 / 3) * c) (P.literal (1 / 2) * d) e) 0 :=
    no_square (third_rl hP).1 (twt_fin hP) h.cf
  have e1 : sol.1 = (solveDepressedG s cb ac cs P.pi Flt.nan (P.literal (1 / 3)) (P.literal (1 / 3) * c) (P.literal (1 / 2) * d) e).1 := by rw [e0]; rfl
  rw [e1, cases_iff he he0 r2.1 f]
  have q2 := r2.2
  generalize P.literal (1 / 3) * c = p at *
  generalize P.literal (1 / 2) * d = q at *
  generalize hv : q * q + p * p * p = D' at *
  change |(D'.val : ℝ) - D| ≤ 18 * P.u * M at er
  obtain ⟨g1, g2⟩ := abs_le.1 er
  have cast_le : |D'.val| ≤ e.val ↔ |(D'.val : ℝ)| ≤ e.val := by exact_mod_cast Iff.rfl
  have cast_lt : D'.val < 0 ↔ (D'.val : ℝ) < 0 := by exact_mod_cast Iff.rfl
  have cast_q : |q.val| ≤ e.val ↔ |(q.val : ℝ)| ≤ e.val := by exact_mod_cast Iff.rfl
  have he0' : (0 : ℝ) ≤ e.val := by exact_mod_cast he0
  simp only [cast_le, cast_lt, cast_q]
  have d1 := le_abs_self D
  have d2 := neg_abs_le D
  refine ⟨fun hD => ?_, fun hD => ?_, fun hD hq => ?_, fun hD hq => ?_⟩
  · rw [if_neg (by rw [abs_le]; intro hc; linarith [hc.2]), if_neg (by linarith)]
  · rw [if_neg (by rw [abs_le]; intro hc; linarith [hc.1]), if_pos (by linarith)]
  · rw [if_pos (abs_le.2 ⟨by linarith, by linarith⟩), if_pos]
    have := abs_add_le ((q.val : ℝ) - d.val / 2) (d.val / 2)
    rw [sub_add_cancel] at this
    linarith
  · rw [if_pos (abs_le.2 ⟨by linarith, by linarith⟩), if_neg]
    rw [not_le]
    have := abs_sub_abs_le_abs_sub (d.val / 2 : ℝ) q.val
    rw [abs_sub_comm] at this
    linarith

/-- If the linear coefficient is not negative, so that `x³ + c x + d = 0` has one solution, then that solution is computed with an error of at most
eleven times the **cube root** of the rounding error, relative to the size `M` of the terms. -/
theorem C156_single (P : BinPar) (hP : P = binary32 ∨ P = binary64) (s cb ac cs : Flt P.fmt → Flt P.fmt) (hs : FaithfulSqrt P s)
    (hcb : AccurateCbrt P cb) (c d e : Flt P.fmt) (h : CubicOk c d) (hc : 0 ≤ c.val) (he : e.isFinite) (he0 : 0 ≤ e.val)
    (hD : (e.val : ℝ) < (1 - 18 * P.u) * ((d.val / 2 : ℝ) ^ 2 + (c.val / 3 : ℝ) ^ 3)) :
    let sol := solveCubicF P s cb ac cs 1 0 c d e
    sol.1 = 1 ∧ sol.2.1.isFinite ∧ sol.2.2 = (Flt.nan, Flt.nan) ∧ ∃ x : ℝ, (∀ y : ℝ, y ^ 3 + c.val * y + d.val = 0 ↔ y = x) ∧
      |(sol.2.1.val : ℝ) - x| ≤ 11 * cbrt P.u * max (Real.sqrt (c.val / 3)) (cbrt |(d.val / 2 : ℝ)|) := by
  intro sol
  have hp := fmt_p hP
  have u0 := Ap.u_pos P
  have ok := ok_one hp
  have hB : (64 : ℝ) * 1 < P.bound := ok.bound
  obtain ⟨-, r2, -, -, f, er⟩ := parts hP h
  have e0 : sol = resubstituteG (solveDepressedG s cb ac cs P.pi Flt.nan (P.literal (1 / 3)) (P.literal (1 / 3) * c) (P.literal (1 / 2) * d) e) 0 :=
    no_square (third_rl hP).1 (twt_fin hP) h.cf
  rw [cases_iff he he0 r2.1 f] at e0
  generalize P.literal (1 / 3) * c = p at *
  generalize P.literal (1 / 2) * d = q at *
  generalize hv : q * q + p * p * p = D' at *
  have hc' : (0 : ℝ) ≤ c.val := by exact_mod_cast hc
  have tl : (c.val / 3 : ℝ) = 0 ∨ 2 * (P.eta : ℝ) ≤ P.u * (c.val / 3 : ℝ) ^ 3 := by
    rcases h.clo with h | h
    · left; rw [h]; simp
    · right
      rw [abs_of_nonneg hc'] at h
      rw [div_pow]
      linarith
  have sl : (d.val / 2 : ℝ) = 0 ∨ 2 * (P.eta : ℝ) ≤ P.u * |(d.val / 2 : ℝ)| ^ 2 := by
    rcases h.dlo with h | h
    · left; rw [h]; simp
    · right
      rw [sq_abs, div_pow]
      linarith
  have th : (c.val / 3 : ℝ) ^ 3 ≤ P.bound / 27 := by
    have := h.chi
    rw [abs_of_nonneg hc'] at this
    rw [div_pow]
    linarith
  have sh : (d.val / 2 : ℝ) ^ 2 ≤ P.bound / 16 := by
    have := h.dhi
    rw [div_pow]
    linarith
  have hcv : (c.val : ℝ) = 3 * (c.val / 3 : ℝ) := by ring
  have hdv : (d.val : ℝ) = 2 * (d.val / 2 : ℝ) := by ring
  have ht : 0 ≤ (c.val / 3 : ℝ) := by positivity
  rw [hcv, hdv]
  simp only [mul_div_cancel_left₀ _ (by norm_num : (3 : ℝ) ≠ 0), mul_div_cancel_left₀ _ (by norm_num : (2 : ℝ) ≠ 0)]
  generalize (c.val / 3 : ℝ) = t at *
  generalize (d.val / 2 : ℝ) = w at *
  rw [abs_of_nonneg ht] at er
  have t3 : 0 ≤ t ^ 3 := by positivity
  have w2 : 0 ≤ w ^ 2 := sq_nonneg w
  have he0' : (0 : ℝ) ≤ e.val := by exact_mod_cast he0
  obtain ⟨g1, g2⟩ := abs_le.1 er
  have Dp : (e.val : ℝ) < D'.val := by linarith
  have Dp' : e.val < D'.val := by exact_mod_cast Dp
  rw [if_neg (by rw [abs_of_pos (lt_of_le_of_lt he0 Dp')]; exact not_le.2 Dp'), if_neg (not_lt.2 (he0.trans Dp'.le))] at e0
  -- sizes
  have Sq : 0 < w ^ 2 + t ^ 3 := by
    have : (0 : ℝ) < (1 - 18 * P.u) * (w ^ 2 + t ^ 3) := lt_of_le_of_lt he0' hD
    by_contra hc
    rw [not_lt] at hc
    have : w ^ 2 + t ^ 3 = 0 := by linarith
    rw [this] at hD
    linarith
  have S0 : 0 < Real.sqrt (w ^ 2 + t ^ 3) := Real.sqrt_pos.2 Sq
  have S2 : Real.sqrt (w ^ 2 + t ^ 3) ^ 2 = w ^ 2 + t ^ 3 := Real.sq_sqrt Sq.le
  have x0 := Real.sqrt_nonneg t
  have x2 : Real.sqrt t ^ 2 = t := Real.sq_sqrt ht
  have y0 := cbrt_nonneg (abs_nonneg w)
  have y3 := cbrt_pow |w|
  set S := Real.sqrt (w ^ 2 + t ^ 3)
  set x := Real.sqrt t
  set y := cbrt |w|
  have x6 : x ^ 6 = t ^ 3 := by rw [← x2]; ring
  have y6 : y ^ 6 = w ^ 2 := by rw [← sq_abs w, ← y3]; ring
  have M0 : 0 ≤ max x y := x0.trans (le_max_left _ _)
  have mx : x ^ 6 ≤ max x y ^ 6 := pow_le_pow_left₀ x0 (le_max_left _ _) 6
  have my : y ^ 6 ≤ max x y ^ 6 := pow_le_pow_left₀ y0 (le_max_right _ _) 6
  have mhi : max x y ^ 6 ≤ P.bound / 16 := by
    rcases max_choice x y with h | h
    · rw [h, x6]; linarith
    · rw [h, y6]; exact sh
  have mlo : 2 * (P.eta : ℝ) ≤ P.u * max x y ^ 6 := by
    by_cases hw : w = 0
    · rcases tl with h1 | h1
      · rw [h1, hw] at Sq; norm_num at Sq
      · exact h1.trans (mul_le_mul_of_nonneg_left (by rw [← x6]; exact mx) u0.le)
    · rcases sl with h1 | h1
      · exact absurd h1 hw
      · refine h1.trans (mul_le_mul_of_nonneg_left ?_ u0.le)
        rw [sq_abs, ← y6]; exact my
  have mlo1 := lo_of_pow (m := 1) M0 (by norm_num) mlo
  rw [pow_one] at mlo1
  have Mp : 0 < max x y := by
    by_contra hc
    have z : max x y = 0 := le_antisymm (not_lt.1 hc) M0
    rw [z] at mx my
    rw [x6] at mx
    rw [y6] at my
    norm_num at mx my
    nlinarith
  generalize max x y = M at *
  have SM : S ≤ 1.415 * M ^ 3 := by
    refine (abs_le_of_sq_le_sq' (b := 1.415 * M ^ 3) ?_ (by positivity)).2
    rw [S2, mul_pow]
    have : (M ^ 3) ^ 2 = M ^ 6 := by ring
    rw [this]
    have : 0 ≤ M ^ 6 := by positivity
    norm_num
    linarith
  have Sb : 16 * S + 1 < P.bound := by
    rcases le_total S 3 with h1 | h1
    · linarith
    · have : 9 * S ^ 2 ≤ P.bound := by rw [S2]; linarith
      nlinarith
  have Mb : 16 * M + 1 < P.bound := by
    rcases le_total M 2 with h1 | h1
    · linarith
    · have : (2 : ℝ) ^ 5 * M ≤ M ^ 6 := by
        have := pow_le_pow_left₀ (by norm_num) h1 5
        calc (2 : ℝ) ^ 5 * M ≤ M ^ 5 * M := mul_le_mul_of_nonneg_right this M0
          _ = M ^ 6 := by ring
      norm_num at this
      linarith
  have ws : |w| ≤ S := abs_le_of_sq_le_sq (by rw [S2]; linarith) S0.le
  have hDr : Rl 18 D' (S ^ 2) := ⟨f, by rw [S2, abs_of_pos Sq]; exact er⟩
  obtain ⟨f1, e1⟩ := single_branch hp hs hcb S0 r2 hDr ws (cbrt_nonneg u0.le) (cbrt_pow _) Mp SM Sb Mb mlo1
  obtain ⟨c1, c2⟩ := cardano ht S2
  have k := sub_zero_cub f1
  have es1 : sol.1 = 1 := by rw [e0]; rfl
  have es2 : sol.2.1 = cb (s D' - q) + -cb (s D' + q) - 0 := by rw [e0]; rfl
  have es3 : sol.2.2 = (Flt.nan, Flt.nan) := by rw [e0]; rfl
  rw [es1, es2, es3]
  refine ⟨rfl, k.1, rfl, _, fun y => ⟨fun hy => c2 y hy, fun hy => by rw [hy]; exact c1⟩, ?_⟩
  rw [k.2]
  exact e1

/-- If `x³ + c x + d = 0` has three distinct solutions, with a discriminant beyond the tolerance and the rounding errors, then all three are computed, with an
error of at most eight times the **square root** of the rounding error, relative to the size of the terms. -/
theorem C156_three (P : BinPar) (hP : P = binary32 ∨ P = binary64) (s cb ac sn cs : Flt P.fmt → Flt P.fmt) (hs : FaithfulSqrt P s)
    (hac : AccurateAcos P ac) (hT : AccurateTrig P sn cs) (c d e : Flt P.fmt) (h : CubicOk c d) (he : e.isFinite) (he0 : 0 ≤ e.val)
    (hD : (d.val / 2 : ℝ) ^ 2 + (c.val / 3 : ℝ) ^ 3 < -(e.val + 18 * P.u * ((d.val / 2 : ℝ) ^ 2 + |(c.val / 3 : ℝ)| ^ 3))) :
    let sol := solveCubicF P s cb ac cs 1 0 c d e
    sol.1 = 3 ∧ sol.2.1.isFinite ∧ sol.2.2.1.isFinite ∧ sol.2.2.2.isFinite ∧
    ∃ x0 x1 x2 : ℝ, x0 ≠ x1 ∧ x0 ≠ x2 ∧ x1 ≠ x2 ∧ (∀ y : ℝ, y ^ 3 + c.val * y + d.val = 0 ↔ y = x0 ∨ y = x1 ∨ y = x2) ∧
      |(sol.2.1.val : ℝ) - x0| ≤ 8 * Real.sqrt P.u * Real.sqrt (-c.val / 3) ∧
      |(sol.2.2.1.val : ℝ) - x1| ≤ 8 * Real.sqrt P.u * Real.sqrt (-c.val / 3) ∧
      |(sol.2.2.2.val : ℝ) - x2| ≤ 8 * Real.sqrt P.u * Real.sqrt (-c.val / 3) := by
  intro sol
  have hp := fmt_p hP
  have u0 := Ap.u_pos P
  have ok := ok_one hp
  have hB : (64 : ℝ) * 1 < P.bound := ok.bound
  obtain ⟨r1, r2, r3, -, f, er⟩ := parts hP h
  have e0 : sol = resubstituteG (solveDepressedG s cb ac cs P.pi Flt.nan (P.literal (1 / 3)) (P.literal (1 / 3) * c) (P.literal (1 / 2) * d) e) 0 :=
    no_square (third_rl hP).1 (twt_fin hP) h.cf
  rw [cases_iff he he0 r2.1 f] at e0
  have he0' : (0 : ℝ) ≤ e.val := by exact_mod_cast he0
  have t3 : 0 ≤ |(c.val / 3 : ℝ)| ^ 3 := by positivity
  have w2 : 0 ≤ (d.val / 2 : ℝ) ^ 2 := sq_nonneg _
  obtain ⟨g1, g2⟩ := abs_le.1 er
  have m0 : 0 ≤ 18 * P.u * ((d.val / 2 : ℝ) ^ 2 + |(c.val / 3 : ℝ)| ^ 3) := by positivity
  have Dn : ((P.literal (1 / 2) * d * (P.literal (1 / 2) * d) + P.literal (1 / 3) * c * (P.literal (1 / 3) * c) * (P.literal (1 / 3) * c)).val : ℝ) < -e.val := by
    linarith
  have Dn' : (P.literal (1 / 2) * d * (P.literal (1 / 2) * d) + P.literal (1 / 3) * c * (P.literal (1 / 3) * c) * (P.literal (1 / 3) * c)).val < -e.val := by
    exact_mod_cast Dn
  have Dz := lt_of_lt_of_le Dn' (neg_nonpos.2 he0)
  rw [if_neg (by rw [abs_of_neg Dz]; linarith), if_pos Dz] at e0
  have tneg : (c.val / 3 : ℝ) < 0 := by
    by_contra hc
    have : 0 ≤ (c.val / 3 : ℝ) ^ 3 := pow_nonneg (not_lt.1 hc) 3
    linarith
  have tv : -(c.val : ℝ) / 3 = -(c.val / 3 : ℝ) := by ring
  have tl : 2 * (P.eta : ℝ) ≤ P.u * (-(c.val / 3 : ℝ)) ^ 3 := by
    rcases h.clo with h | h
    · rw [h] at tneg; norm_num at tneg
    · have : -(c.val / 3 : ℝ) = |(c.val : ℝ)| / 3 := by rw [abs_of_neg (by linarith)]; ring
      rw [this, div_pow]
      linarith
  have th : (-(c.val / 3 : ℝ)) ^ 3 ≤ P.bound / 27 := by
    have := h.chi
    have e : -(c.val / 3 : ℝ) = |(c.val : ℝ)| / 3 := by rw [abs_of_neg (by linarith)]; ring
    rw [e, div_pow]
    linarith
  have hcv : (c.val : ℝ) = 3 * (c.val / 3 : ℝ) := by ring
  have hdv : (d.val : ℝ) = 2 * (d.val / 2 : ℝ) := by ring
  have root : ∀ y : ℝ, y ^ 3 + c.val * y + d.val = y ^ 3 + 3 * (c.val / 3 : ℝ) * y + 2 * (d.val / 2 : ℝ) := fun y => by ring
  simp only [root]
  rw [tv]
  generalize (d.val / 2 : ℝ) = w at *
  obtain ⟨t, ht⟩ : ∃ t : ℝ, (c.val / 3 : ℝ) = -t := ⟨-(c.val / 3 : ℝ), by ring⟩
  rw [ht] at r1 r3 tneg tl th hD t3 m0 ⊢
  rw [neg_neg] at tl th ⊢
  have tp : 0 < t := by linarith
  have t3' : (-t) ^ 3 = -t ^ 3 := by ring
  rw [t3'] at r3 hD
  have wt : w ^ 2 ≤ t ^ 3 := by linarith
  have q0 : 0 < Real.sqrt t := Real.sqrt_pos.2 tp
  have q2 : Real.sqrt t ^ 2 = t := Real.sq_sqrt tp.le
  have lo1 : 2 * (P.eta : ℝ) ≤ P.u * Real.sqrt t := by
    have := lo_of_pow (P := P) (x := Real.sqrt t) (m := 1) (n := 6) q0.le (by norm_num) (by rw [show Real.sqrt t ^ 6 = (Real.sqrt t ^ 2) ^ 3 by ring, q2]; exact tl)
    rwa [pow_one] at this
  have hb : 16 * Real.sqrt t + 8 < P.bound := by
    rcases le_total (Real.sqrt t) 3 with h1 | h1
    · linarith
    · have e6 : Real.sqrt t ^ 6 = t ^ 3 := by rw [show Real.sqrt t ^ 6 = (Real.sqrt t ^ 2) ^ 3 by ring, q2]
      have : (3 : ℝ) ^ 5 * Real.sqrt t ≤ Real.sqrt t ^ 6 := by
        have := pow_le_pow_left₀ (by norm_num) h1 5
        calc (3 : ℝ) ^ 5 * Real.sqrt t ≤ Real.sqrt t ^ 5 * Real.sqrt t := mul_le_mul_of_nonneg_right this q0.le
          _ = Real.sqrt t ^ 6 := by ring
      norm_num at this
      linarith
  have z1 : Real.sqrt P.u ≤ 0.001 := by
    rw [Real.sqrt_le_left (by norm_num)]
    have := small_u hP
    norm_num at this ⊢
    linarith
  obtain ⟨⟨k1, k2⟩, ⟨k3, k4⟩, k5, k6⟩ := three_branch hP hs hac hT tp wt r1 r2 r3 f Dz (Real.sqrt_nonneg _) (Real.sq_sqrt u0.le) z1 hb lo1
  obtain ⟨ex, -⟩ := solveDepressed_exact (-t) w
  have Dr : w * w + -t * -t * -t < 0 := by
    have : w * w + -t * -t * -t = w ^ 2 + -t ^ 3 := by ring
    rw [this]
    linarith
  have p3 : -(-t * -t * -t) = t ^ 3 := by ring
  have es : solveDepressed (-t) w 0 = ⟨3, ![some (2 * Real.sqrt t * Real.cos (1 / 3 * Real.arccos (-w / Real.sqrt (t ^ 3)))),
      some (-(2 * Real.sqrt t) * Real.cos (1 / 3 * Real.arccos (-w / Real.sqrt (t ^ 3)) + Real.pi / 3)),
      some (-(2 * Real.sqrt t) * Real.cos (1 / 3 * Real.arccos (-w / Real.sqrt (t ^ 3)) - Real.pi / 3))]⟩ := by
    unfold solveDepressed
    simp only
    rw [if_neg, if_pos Dr, p3, neg_neg]
    have : isZero (w * w + -t * -t * -t) (0 : ℝ) = false := by
      rw [isZero_zero_exact, decide_eq_false_iff_not]
      exact Dr.ne
    rw [this]
    exact Bool.false_ne_true
  rw [es] at ex
  have d1 := sub_zero_cub k1
  have d2 := sub_zero_cub k3
  have d3 := sub_zero_cub k5
  rw [← d1.2] at k2
  rw [← d2.2] at k4
  rw [← d3.2] at k6
  rw [e0]
  have inj := ex.inj
  refine ⟨rfl, d1.1, d2.1, d3.1, _, _, _, fun hc => ?_, fun hc => ?_, fun hc => ?_, fun y => ?_, k2, k4, k6⟩
  · exact absurd (inj 0 1 (show (0 : ℕ) < 3 by norm_num) (show (1 : ℕ) < 3 by norm_num) (congrArg some hc)) (by decide)
  · exact absurd (inj 0 2 (show (0 : ℕ) < 3 by norm_num) (show (2 : ℕ) < 3 by norm_num) (congrArg some hc)) (by decide)
  · exact absurd (inj 1 2 (show (1 : ℕ) < 3 by norm_num) (show (2 : ℕ) < 3 by norm_num) (congrArg some hc)) (by decide)
  · rw [← ex.iff y]
    unfold Sols.Reported
    constructor
    · rintro ⟨i, -, hi⟩
      fin_cases i
      · exact Or.inl (Option.some.inj hi).symm
      · exact Or.inr (Or.inl (Option.some.inj hi).symm)
      · exact Or.inr (Or.inr (Option.some.inj hi).symm)
    · rintro (hy | hy | hy)
      · exact ⟨0, show (0 : ℕ) < 3 by norm_num, congrArg some hy.symm⟩
      · exact ⟨1, show (1 : ℕ) < 3 by norm_num, congrArg some hy.symm⟩
      · exact ⟨2, show (2 : ℕ) < 3 by norm_num, congrArg some hy.symm⟩

/-- Whatever the coefficients: if three solutions are reported and the discriminant did not overflow then none of the three is NaN.  The argument of the
arc cosine, a quotient that may be as near to one as one likes, is never rounded out of the domain. -/
theorem C156_three_numbers (P : BinPar) (hP : P = binary32 ∨ P = binary64) (s cb ac sn cs : Flt P.fmt → Flt P.fmt) (hs : FaithfulSqrt P s)
    (hac : AccurateAcos P ac) (hT : AccurateTrig P sn cs) (a b c d e : Flt P.fmt)
    (hD : let A := b / a
      let p := P.literal (1 / 3) * (-P.literal (1 / 3) * A * A + c / a)
      let q := P.literal (1 / 2) * (P.literal (2 / 27) * A * A * A - P.literal (1 / 3) * A * (c / a) + d / a)
      (q * q + p * p * p).isFinite) (h3 : (solveCubicF P s cb ac cs a b c d e).1 = 3) :
    let sol := solveCubicF P s cb ac cs a b c d e
    sol.2.1 ≠ Flt.nan ∧ sol.2.2.1 ≠ Flt.nan ∧ sol.2.2.2 ≠ Flt.nan := by
  intro sol
  have hp := fmt_p hP
  have u0 := Ap.u_pos P
  have ok := ok_one hp
  have hu := ok.u
  have hB : (64 : ℝ) * 1 < P.bound := ok.bound
  have heta := Ap.eta_le P
  have et : (P.eta : ℝ) ≤ 0.001 := by nlinarith
  have u1 : (P.u : ℝ) ≤ 0.001 := by linarith
  simp only at hD
  have th := third_rl hP
  have th2 := th.2
  rw [abs_of_pos (by norm_num : (0 : ℝ) < 1 / 3)] at th2
  obtain ⟨th3, th4⟩ := abs_le.1 th2
  -- the shift is finite
  have hsub : (P.literal (1 / 3) * (b / a)).isFinite := by
    obtain ⟨-, h1⟩ := Flt.add_finite hD
    obtain ⟨-, h2⟩ := Flt.mul_finite h1
    obtain ⟨-, h4⟩ := Flt.mul_finite h2
    obtain ⟨h5, -⟩ := Flt.add_finite h4
    obtain ⟨-, hA⟩ := Flt.mul_finite h5
    have r := Flt.rep_val (b / a)
    have le : |(P.literal (1 / 3)).val * (b / a).val| ≤ |(b / a).val| := by
      rw [abs_mul]
      refine mul_le_of_le_one_left (abs_nonneg _) ?_
      have : |((P.literal (1 / 3)).val : ℝ)| ≤ 1 := abs_le.2 ⟨by linarith, by linarith⟩
      exact_mod_cast this
    have fle : |P.fl ((P.literal (1 / 3)).val * (b / a).val)| ≤ |(b / a).val| := by
      have ra : P.Rep |(b / a).val| := by
        rcases abs_choice (b / a).val with h | h
        · rw [h]; exact r.1
        · rw [h]; exact r.1.neg
      exact abs_le.2 ⟨P.le_fl_of_rep ra.neg (abs_le.1 le).1, P.fl_le_of_rep ra (abs_le.1 le).2⟩
    exact (is_mul (P := P) ⟨th.1, rfl⟩ ⟨hA, rfl⟩ rfl (lt_of_le_of_lt fle r.2)).1
  have e0 : sol = resubstituteG (solveDepressedG s cb ac cs P.pi Flt.nan (P.literal (1 / 3))
      (P.literal (1 / 3) * (-P.literal (1 / 3) * (b / a) * (b / a) + c / a))
      (P.literal (1 / 2) * (P.literal (2 / 27) * (b / a) * (b / a) * (b / a) - P.literal (1 / 3) * (b / a) * (c / a) + d / a)) e)
      (P.literal (1 / 3) * (b / a)) := rfl
  change sol.1 = 3 at h3
  generalize P.literal (1 / 3) * (-P.literal (1 / 3) * (b / a) * (b / a) + c / a) = p at *
  generalize P.literal (1 / 2) * (P.literal (2 / 27) * (b / a) * (b / a) * (b / a) - P.literal (1 / 3) * (b / a) * (c / a) + d / a) = q at *
  generalize P.literal (1 / 3) * (b / a) = sub at *
  have not_nan : ∀ x : Flt P.fmt, x.isFinite → x - sub ≠ Flt.nan := fun x hx => by
    rw [Flt.sub_eq hx hsub]
    exact (FltQuad.round_sign _).1
  -- the case
  unfold solveDepressedG at e0
  simp only at e0
  have key : Cmp.lt (q * q + p * p * p) 0 = true ∧ isZero (q * q + p * p * p) e = false := by
    split_ifs at e0 with c1 c2 c3
    · rw [e0] at h3; simp [resubstituteG] at h3
    · rw [e0] at h3; simp [resubstituteG] at h3
    · exact ⟨c3, by simpa using c1⟩
    · rw [e0] at h3; simp [resubstituteG] at h3
  rw [key.1, key.2] at e0
  simp only [Bool.false_eq_true, if_false, if_true] at e0
  have Dz : (q * q + p * p * p).val < 0 := by
    have := key.1
    rwa [lt_zero_flt hD, decide_eq_true_eq] at this
  obtain ⟨a1, a2, a3, a4, a5, a6, a7⟩ := arg_le hs hD Dz
  -- the square root
  obtain ⟨hpp, hpf⟩ := Flt.mul_finite a2
  have pneg : p.val < 0 := by
    by_contra hc
    rw [not_lt] at hc
    rw [Flt.mul_val a2, Flt.mul_val hpp] at a3
    have := P.fl_nonneg (mul_nonneg (P.fl_nonneg (mul_self_nonneg p.val)) hc)
    linarith
  have hm : (-p).isFinite := Flt.neg_finite.2 hpf
  have x0 : 0 < (-p).val := by rw [Flt.neg_val]; linarith
  obtain ⟨k1, k2⟩ := Flt.eq_fin hm
  obtain ⟨r, hr, er, hf⟩ := hs.fin (-p).val k1 x0.le
  have er' : s (-p) = Flt.fin r hr := by rw [← er, ← k2]
  have r0 : (0 : ℝ) ≤ r := by exact_mod_cast hf.1
  obtain ⟨g1, -⟩ := hf.sq k1 x0.le
  have g1' : (r : ℝ) ^ 2 ≤ (-p).val * (1 + 2 * P.u) ^ 2 := by exact_mod_cast g1
  have pb : ((-p).val : ℝ) < P.bound := by
    have := (abs_lt.1 (Flt.rep_val (-p)).2).2
    exact_mod_cast this
  have rb : (r : ℝ) ^ 2 ≤ 1.1 * P.bound := by
    have h1 : (1 + 2 * (P.u : ℝ)) ^ 2 ≤ 1.1 := by nlinarith
    have h2 : (0 : ℝ) ≤ (-p).val := by exact_mod_cast x0.le
    nlinarith
  have rb2 : 4.3 * (r : ℝ) + 2 < P.bound := by
    rcases le_total (r : ℝ) 8 with h1 | h1
    · linarith
    · nlinarith
  have gf : (Flt.fin r hr : Flt P.fmt).isFinite := trivial
  have sf : (s (-p)).isFinite ∧ ((s (-p)).val : ℝ) = r := by rw [er']; exact ⟨gf, rfl⟩
  have two := Flt.two_eq P
  have v2 : (((2 : Flt P.fmt).val : ℚ) : ℝ) = 2 := by rw [two.2]; norm_num
  obtain ⟨tf, te⟩ := mul_err two.1 sf.1 (by rw [v2, sf.2, abs_of_nonneg (by linarith)]; linarith)
  rw [v2, sf.2, abs_of_nonneg (by linarith : 0 ≤ 2 * (r : ℝ))] at te
  have ur : P.u * (2 * (r : ℝ)) ≤ 0.001 * (2 * r) := mul_le_mul_of_nonneg_right u1 (by linarith)
  have tb : |((2 * s (-p)).val : ℝ)| ≤ 2.01 * r + 0.01 := by
    obtain ⟨h1, h2⟩ := abs_le.1 te
    exact abs_le.2 ⟨by linarith, by linarith⟩
  -- the products
  have prod : ∀ x t : Flt P.fmt, x.isFinite → t.isFinite → |(t.val : ℝ)| ≤ 2.01 * r + 0.01 → (t * cs x).isFinite := by
    intro x t hx ht hb
    have c1 := hT.cos_err x hx
    have c2 := Real.abs_cos_le_one (x.val : ℝ)
    have c3 := mul_le_mul_of_nonneg_left c2 u0.le
    have c4 : |((cs x).val : ℝ)| ≤ 1.01 := by
      have := abs_add_le (((cs x).val : ℝ) - Real.cos x.val) (Real.cos x.val)
      rw [sub_add_cancel] at this
      linarith
    refine (mul_err ht (hT.cos_fin x hx) ?_).1
    rw [abs_mul]
    have := mul_le_mul hb c4 (abs_nonneg _) (by linarith)
    linarith
  have f1 := hac.fin _ a6 a7
  have e5 := hac.err _ a6 a7
  have ap0 := Real.arccos_nonneg ((-q / s (-(p * p * p))).val : ℝ)
  have ap1 := Real.arccos_le_pi ((-q / s (-(p * p * p))).val : ℝ)
  have pi1 := Real.pi_lt_d4
  have pi0 := Real.pi_gt_three
  have ua : P.u * Real.arccos (-q / s (-(p * p * p))).val ≤ 0.001 * 3.15 := mul_le_mul u1 (by linarith) ap0 (by norm_num)
  obtain ⟨e6, e7⟩ := abs_le.1 e5
  have ab : |((ac (-q / s (-(p * p * p)))).val : ℝ)| ≤ 3.2 := abs_le.2 ⟨by linarith, by linarith⟩
  have tb1 : |((P.literal (1 / 3)).val : ℝ)| ≤ 0.4 := abs_le.2 ⟨by linarith, by linarith⟩
  have pb1 : |((P.literal (1 / 3)).val : ℝ) * (ac (-q / s (-(p * p * p)))).val| ≤ 1.28 := by
    rw [abs_mul]
    have := mul_le_mul tb1 ab (abs_nonneg _) (by norm_num)
    linarith
  obtain ⟨f2, e8⟩ := mul_err th.1 f1 (by linarith)
  have up := mul_le_mul u1 pb1 (abs_nonneg _) (by norm_num)
  obtain ⟨e9, e10⟩ := abs_le.1 e8
  obtain ⟨e11, e12⟩ := abs_le.1 pb1
  obtain ⟨f3, e13⟩ := pi_third hP
  obtain ⟨e14, e15⟩ := abs_le.1 e13
  have f4 := (add_err f2 f3 (by
    have : |((P.literal (1 / 3) * ac (-q / s (-(p * p * p)))).val : ℝ) + (P.pi / 3).val| ≤ 3 := abs_le.2 ⟨by linarith, by linarith⟩
    linarith)).1
  have f5 := (sub_err f2 f3 (by
    have : |((P.literal (1 / 3) * ac (-q / s (-(p * p * p)))).val : ℝ) - (P.pi / 3).val| ≤ 3 := abs_le.2 ⟨by linarith, by linarith⟩
    linarith)).1
  have nf : (-(2 * s (-p))).isFinite := Flt.neg_finite.2 tf
  have nb : |((-(2 * s (-p))).val : ℝ)| ≤ 2.01 * r + 0.01 := by
    rw [Flt.neg_val]; push_cast; rw [abs_neg]; exact tb
  rw [e0]
  exact ⟨not_nan _ (prod _ _ f2 tf tb), not_nan _ (prod _ _ f4 nf nb), not_nan _ (prod _ _ f5 nf nb)⟩

namespace FltCub

/-- The solution of `x³ + 3 h x + 2 = 0`. -/
theorem root_gt {h b x : ℝ} (h0 : 0 < h) (h1 : h ≤ 1 / 256) (hb : b ^ 3 = 2) (b0 : 1.25 ≤ b) (b1 : b ≤ 1.26) (hx : x ^ 3 + 3 * h * x + 2 = 0) :
    3 / 4 * h ≤ b + x := by
  by_contra hc
  rw [not_le] at hc
  have mono : x ^ 3 ≤ (-b + 3 / 4 * h) ^ 3 := by
    have k : 0 ≤ -b + 3 / 4 * h - x := by linarith
    nlinarith [mul_nonneg k (sq_nonneg (x + (-b + 3 / 4 * h))), mul_nonneg k (sq_nonneg (x - (-b + 3 / 4 * h)))]
  have m2 : 3 * h * x ≤ 3 * h * (-b + 3 / 4 * h) := mul_le_mul_of_nonneg_left (by linarith) (by linarith)
  have e : (-b + 3 / 4 * h) ^ 3 = -2 + 9 / 4 * (b ^ 2 * h) - 27 / 16 * (b * h ^ 2) + 27 / 64 * h ^ 3 := by linear_combination -hb
  have k1 : b ^ 2 * h ≤ 1.26 * (b * h) := by nlinarith [mul_pos (by linarith : 0 < b) h0]
  have k2 : h ^ 2 ≤ 1 / 256 * h := by nlinarith
  have k3 : h ^ 3 ≤ 1 / 256 * h := by nlinarith [mul_pos h0 h0]
  have k4 : 0 ≤ b * h ^ 2 := by positivity
  have k5 : 1.25 * h ≤ b * h := mul_le_mul_of_nonneg_right b0 h0.le
  nlinarith

theorem cbrt_zero : cbrt 0 = 0 := cube_inj (by rw [cbrt_pow]; norm_num)

theorem cbrt_two : 1.25 ≤ cbrt 2 ∧ cbrt 2 ≤ 1.26 := by
  have := cbrt_pow 2
  constructor
  · by_contra hc
    rw [not_le] at hc
    have := pow_lt_pow_left₀ hc (cbrt_nonneg (by norm_num)) (n := 3) (by norm_num)
    norm_num at this
    linarith
  · refine le_of_cube (by norm_num) ?_
    rw [this]; norm_num

/-- The solution if the linear coefficient is lost in the discriminant. -/
theorem lost_err (hp : 10 ≤ P.p) {s cb : Flt P.fmt → Flt P.fmt} (hs : FaithfulSqrt P s) (hcb : AccurateCbrt P cb) {D q : Flt P.fmt} (hD : D.isFinite ∧ D.val = 1)
    (hq : q.isFinite ∧ q.val = 1) :
    (cb (s D - q) + -cb (s D + q)).isFinite ∧ |((cb (s D - q) + -cb (s D + q)).val : ℝ) + cbrt 2| ≤ 6 * P.u := by
  have ok := ok_one hp
  have u0 := Ap.u_pos P
  have hu := ok.u
  have hB : (64 : ℝ) * 1 < P.bound := ok.bound
  have heta := Ap.eta_le P
  have et : (P.eta : ℝ) ≤ 0.001 * P.u := by nlinarith
  have r1 : P.fmt.rep 1 := by
    have := Flt.rep_val (1 : Flt P.fmt)
    rwa [Flt.one_val] at this
  have e1 := FltQuad.sqrt_exact hs hD.1 r1 (by norm_num) (by rw [hD.2]; norm_num)
  have gf : (Flt.fin 1 r1 : Flt P.fmt).isFinite := trivial
  have gv : (Flt.fin 1 r1 : Flt P.fmt).isFinite ∧ (Flt.fin 1 r1 : Flt P.fmt).val = 1 := ⟨gf, rfl⟩
  have z : (s D - q).isFinite ∧ (s D - q).val = 0 := by
    rw [e1]
    exact is_sub (P := P) gv hq (by rw [sub_self, P.fl_zero]) (by rw [abs_zero]; exact P.bound_pos)
  have t : (s D + q).isFinite ∧ (s D + q).val = 2 := by
    rw [e1]
    refine is_add (P := P) gv hq ?_ ?_
    · have := (Flt.rep_val (2 : Flt P.fmt)).1
      rw [(Flt.two_eq P).2] at this
      norm_num
      exact P.fl_rep this
    · have := (Flt.rep_val (2 : Flt P.fmt)).2
      rwa [(Flt.two_eq P).2] at this
  have f1 := hcb.fin _ z.1
  have f2 := hcb.fin _ t.1
  have g1 := hcb.err _ z.1
  have g2 := hcb.err _ t.1
  rw [z.2] at g1
  rw [t.2] at g2
  push_cast at g1 g2
  rw [cbrt_zero, abs_zero, mul_zero, zero_add, sub_zero] at g1
  obtain ⟨c1, c2⟩ := cbrt_two
  rw [abs_of_pos (by linarith : 0 < cbrt 2)] at g2
  have uc := mul_le_mul_of_nonneg_left c2 u0.le
  obtain ⟨k1, k2⟩ := abs_le.1 g1
  obtain ⟨k3, k4⟩ := abs_le.1 g2
  have v : ((-cb (s D + q)).val : ℝ) = -((cb (s D + q)).val : ℝ) := by rw [Flt.neg_val]; push_cast; rfl
  have b : |((cb (s D - q)).val : ℝ) + (-cb (s D + q)).val| ≤ 1.3 := by
    rw [v]; exact abs_le.2 ⟨by linarith, by linarith⟩
  obtain ⟨f, e⟩ := add_err f1 (Flt.neg_finite.2 f2) (by linarith)
  have m := mul_le_mul_of_nonneg_left b u0.le
  rw [v] at e m
  obtain ⟨k5, k6⟩ := abs_le.1 e
  exact ⟨f, abs_le.2 ⟨by linarith, by linarith⟩⟩

theorem lost_solution (hp : 10 ≤ P.p) {s cb ac cs : Flt P.fmt → Flt P.fmt} (hs : FaithfulSqrt P s) (hcb : AccurateCbrt P cb) {pi third p q e : Flt P.fmt}
    (hD : (q * q + p * p * p).isFinite ∧ (q * q + p * p * p).val = 1) (hq : q.isFinite ∧ q.val = 1) (he : e.isFinite) (he0 : 0 ≤ e.val) (he1 : e.val < 1)
    {h : ℝ} (h0 : 0 < h) (h1 : h ≤ 1 / 256) (hu : 24 * P.u ≤ h) :
    let sol := resubstituteG (solveDepressedG s cb ac cs pi Flt.nan third p q e) 0
    sol.1 = 1 ∧ sol.2.1.isFinite ∧ ∀ x : ℝ, x ^ 3 + 3 * h * x + 2 = 0 → h / 2 ≤ |(sol.2.1.val : ℝ) - x| := by
  obtain ⟨f, er⟩ := lost_err hp hs hcb hD hq
  obtain ⟨k1, k2⟩ := sub_zero_cub f
  rw [cases_iff he he0 hq.1 hD.1, if_neg (by rw [hD.2, abs_one]; exact not_le.2 he1), if_neg (by rw [hD.2]; norm_num)]
  refine ⟨rfl, k1, fun x hx => ?_⟩
  show h / 2 ≤ |((cb (s (q * q + p * p * p) - q) + -cb (s (q * q + p * p * p) + q) - 0).val : ℝ) - x|
  rw [k2]
  obtain ⟨c1, c2⟩ := cbrt_two
  have g := root_gt h0 h1 (cbrt_pow 2) c1 c2 hx
  obtain ⟨k3, k4⟩ := abs_le.1 er
  refine le_trans ?_ (neg_le_abs _)
  linarith

end FltCub

/-- The cube root of the rounding error is really lost.  With numbers of type `float` the only solution of `x³ + 3/256 x + 2 = 0`, about -1.25682, is computed
as about -1.25992, with an error of more than 1/512, although the equation is well conditioned; for every square root, every cube root and every tolerance
below one. -/
theorem C156_float_fails (s cb ac cs : Flt binary32.fmt → Flt binary32.fmt) (hs : FaithfulSqrt binary32 s) (hcb : AccurateCbrt binary32 cb) :
    ∃ c d : Flt binary32.fmt, c.isFinite ∧ c.val = 3 / 256 ∧ d.isFinite ∧ d.val = 2 ∧ ∀ e : Flt binary32.fmt, e.isFinite → 0 ≤ e.val → e.val < 1 →
      let sol := solveCubicF binary32 s cb ac cs 1 0 c d e
      sol.1 = 1 ∧ sol.2.1.isFinite ∧ ∀ x : ℝ, x ^ 3 + 3 / 256 * x + 2 = 0 → 1 / 512 ≤ |(sol.2.1.val : ℝ) - x| := by
  have hP : binary32 = binary32 ∨ binary32 = binary64 := Or.inl rfl
  have c1 := is_round (P := binary32) (q := 3 / 256) (c := 3 / 256) (by fl_num (-30) (12582912)) (lt_bound32 (by norm_num))
  have d1 := is_round (P := binary32) (q := 2) (c := 2) (by fl_num (-22) (8388608)) (lt_bound32 (by norm_num))
  refine ⟨_, _, c1.1, c1.2, d1.1, d1.2, fun e he he0 he1 => ?_⟩
  generalize (Flt.round (3 / 256) : Flt binary32.fmt) = c at *
  generalize (Flt.round 2 : Flt binary32.fmt) = d at *
  have third : (binary32.literal (1 / 3)).isFinite ∧ (binary32.literal (1 / 3)).val = 11184811 / 2 ^ 25 := by
    have h1 : binary64.fl (1 / 3) = 6004799503160661 / 2 ^ 54 := by fl_num (-54) (6004799503160661)
    unfold BinPar.literal
    rw [h1]
    exact is_round (P := binary32) (by fl_num (-25) (11184811)) (lt_bound32 (by norm_num))
  have half : (binary32.literal (1 / 2)).isFinite ∧ (binary32.literal (1 / 2)).val = 1 / 2 := by
    have h1 : binary64.fl (1 / 2) = 1 / 2 := by fl_num (-53) (4503599627370496)
    unfold BinPar.literal
    rw [h1]
    exact is_round (P := binary32) (by fl_num (-24) (8388608)) (lt_bound32 (by norm_num))
  have p1 := is_mul (P := binary32) (c := 1 / 256) third c1 (by fl_num (-31) (8388608)) (lt_bound32 (by norm_num))
  have q1 := is_mul (P := binary32) (c := 1) half d1 (by fl_num (-23) (8388608)) (lt_bound32 (by norm_num))
  intro sol
  have e0 : sol = _ := no_square (third_rl hP).1 (twt_fin hP) c1.1
  generalize binary32.literal (1 / 3) * c = p at *
  generalize binary32.literal (1 / 2) * d = q at *
  have qq := is_mul (P := binary32) (c := 1) q1 q1 (by fl_num (-23) (8388608)) (lt_bound32 (by norm_num))
  have pp := is_mul (P := binary32) (c := 1 / 2 ^ 16) p1 p1 (by fl_num (-39) (8388608)) (lt_bound32 (by norm_num))
  have p3 := is_mul (P := binary32) (c := 1 / 2 ^ 24) pp p1 (by fl_num (-47) (8388608)) (lt_bound32 (by norm_num))
  have D1 := is_add (P := binary32) (c := 1) qq p3 (by fl_tie (-23) (8388608)) (lt_bound32 (by norm_num))
  have := lost_solution (P := binary32) (by decide) hs hcb (ac := ac) (cs := cs) (pi := binary32.pi) (third := binary32.literal (1 / 3)) D1 q1 he he0 he1
    (h := 1 / 256) (by norm_num) le_rfl (by
      have : ((binary32.u : ℚ) : ℝ) = 1 / 2 ^ 24 := by norm_num [BinPar.u, binary32]
      rw [this]; norm_num)
  rw [e0]
  refine ⟨this.1, this.2.1, fun x hx => ?_⟩
  have k := this.2.2 x (by linarith)
  norm_num at k ⊢
  exact k

/-- The same with numbers of type `double`: the only solution of `x³ + 3/2¹⁸ x + 2 = 0` is computed with an error of more than 1/2¹⁹, ten of the sixteen
digits are wrong. -/
theorem C156_double_fails (s cb ac cs : Flt binary64.fmt → Flt binary64.fmt) (hs : FaithfulSqrt binary64 s) (hcb : AccurateCbrt binary64 cb) :
    ∃ c d : Flt binary64.fmt, c.isFinite ∧ c.val = 3 / 2 ^ 18 ∧ d.isFinite ∧ d.val = 2 ∧ ∀ e : Flt binary64.fmt, e.isFinite → 0 ≤ e.val → e.val < 1 →
      let sol := solveCubicF binary64 s cb ac cs 1 0 c d e
      sol.1 = 1 ∧ sol.2.1.isFinite ∧ ∀ x : ℝ, x ^ 3 + 3 / 2 ^ 18 * x + 2 = 0 → 1 / 2 ^ 19 ≤ |(sol.2.1.val : ℝ) - x| := by
  have hP : binary64 = binary32 ∨ binary64 = binary64 := Or.inr rfl
  have c1 := is_round (P := binary64) (q := 3 / 2 ^ 18) (c := 3 / 2 ^ 18) (by fl_num (-69) (6755399441055744)) (lt_bound64 (by norm_num))
  have d1 := is_round (P := binary64) (q := 2) (c := 2) (by fl_num (-51) (4503599627370496)) (lt_bound64 (by norm_num))
  refine ⟨_, _, c1.1, c1.2, d1.1, d1.2, fun e he he0 he1 => ?_⟩
  generalize (Flt.round (3 / 2 ^ 18) : Flt binary64.fmt) = c at *
  generalize (Flt.round 2 : Flt binary64.fmt) = d at *
  have third : (binary64.literal (1 / 3)).isFinite ∧ (binary64.literal (1 / 3)).val = 6004799503160661 / 2 ^ 54 := by
    have h1 : binary64.fl (1 / 3) = 6004799503160661 / 2 ^ 54 := by fl_num (-54) (6004799503160661)
    unfold BinPar.literal
    rw [h1]
    exact is_round (P := binary64) (by fl_num (-54) (6004799503160661)) (lt_bound64 (by norm_num))
  have half : (binary64.literal (1 / 2)).isFinite ∧ (binary64.literal (1 / 2)).val = 1 / 2 := by
    have h1 : binary64.fl (1 / 2) = 1 / 2 := by fl_num (-53) (4503599627370496)
    unfold BinPar.literal
    rw [h1]
    exact is_round (P := binary64) h1 (lt_bound64 (by norm_num))
  have p1 := is_mul (P := binary64) (c := 1 / 2 ^ 18) third c1 (by fl_tie (-71) (9007199254740992)) (lt_bound64 (by norm_num))
  have q1 := is_mul (P := binary64) (c := 1) half d1 (by fl_num (-52) (4503599627370496)) (lt_bound64 (by norm_num))
  intro sol
  have e0 : sol = _ := no_square (third_rl hP).1 (twt_fin hP) c1.1
  generalize binary64.literal (1 / 3) * c = p at *
  generalize binary64.literal (1 / 2) * d = q at *
  have qq := is_mul (P := binary64) (c := 1) q1 q1 (by fl_num (-52) (4503599627370496)) (lt_bound64 (by norm_num))
  have pp := is_mul (P := binary64) (c := 1 / 2 ^ 36) p1 p1 (by fl_num (-88) (4503599627370496)) (lt_bound64 (by norm_num))
  have p3 := is_mul (P := binary64) (c := 1 / 2 ^ 54) pp p1 (by fl_num (-106) (4503599627370496)) (lt_bound64 (by norm_num))
  have D1 := is_add (P := binary64) (c := 1) qq p3 (by fl_num (-52) (4503599627370496)) (lt_bound64 (by norm_num))
  have := lost_solution (P := binary64) (by decide) hs hcb (ac := ac) (cs := cs) (pi := binary64.pi) (third := binary64.literal (1 / 3)) D1 q1 he he0 he1
    (h := 1 / 2 ^ 18) (by norm_num) (by norm_num) (by
      have : ((binary64.u : ℚ) : ℝ) = 1 / 2 ^ 53 := by norm_num [BinPar.u, binary64]
      rw [this]; norm_num)
  rw [e0]
  refine ⟨this.1, this.2.1, fun x hx => ?_⟩
  have k := this.2.2 x (by linarith)
  norm_num at k ⊢
  exact k

/-! ### Concrete cases -/

namespace FltCub

theorem ok64 {c d : Flt binary64.fmt} (hc : c.isFinite) (hd : d.isFinite) (c1 : |(c.val : ℝ)| = 3) (d1 : |(d.val : ℝ)| = 1) : CubicOk c d := by
  have u0 := Ap.u_pos binary64
  have heta := Ap.eta_le binary64
  have hu := (ok_one (P := binary64) (by decide)).u
  have hb : (2 : ℝ) ^ 100 ≤ binary64.bound := by
    have := lt_bound64 (q := 2 ^ 100) (by norm_num)
    rw [abs_of_pos (by norm_num)] at this
    exact_mod_cast this.le
  refine ⟨hc, hd, ?_, ?_, Or.inr ?_, Or.inr ?_⟩
  · rw [c1]; norm_num at hb ⊢; linarith
  · rw [← sq_abs, d1]; norm_num at hb ⊢; linarith
  · rw [c1]; nlinarith
  · rw [← sq_abs, d1]; nlinarith

end FltCub

/-- The equation `x³ + 3 x + 1 = 0`, with the tolerance used by the library for `double`, meets the hypotheses of `C156_single`, and
`x³ - 3 x + 1 = 0` those of `C156_three`; there are accurate functions. -/
example : ∃ s cb ac sn cs : Flt binary64.fmt → Flt binary64.fmt, FaithfulSqrt binary64 s ∧ AccurateCbrt binary64 cb ∧ AccurateAcos binary64 ac ∧
    AccurateTrig binary64 sn cs := by
  obtain ⟨s, hs⟩ := exists_correctSqrt binary64
  obtain ⟨cb, hcb⟩ := exists_cbrt (P := binary64) (by decide)
  obtain ⟨ac, hac⟩ := exists_acos (P := binary64) (by decide)
  obtain ⟨sn, cs, hT, -⟩ := exists_accurate (P := binary64) (by decide)
  exact ⟨s, cb, ac, sn, cs, hs.faithful, hcb, hac, hT⟩

example : ∃ c c' d e : Flt binary64.fmt, CubicOk c d ∧ 0 ≤ c.val ∧ e.isFinite ∧ 0 < e.val ∧
    (e.val : ℝ) < (1 - 18 * binary64.u) * ((d.val / 2 : ℝ) ^ 2 + (c.val / 3 : ℝ) ^ 3) ∧ CubicOk c' d ∧
    (d.val / 2 : ℝ) ^ 2 + (c'.val / 3 : ℝ) ^ 3 < -(e.val + 18 * binary64.u * ((d.val / 2 : ℝ) ^ 2 + |(c'.val / 3 : ℝ)| ^ 3)) := by
  have h3 := FltQuad.lit64 3 (by norm_num) (q := 3) (by norm_num)
  have h3' := FltQuad.lit64 (-3) (by norm_num) (q := -3) (by norm_num)
  have h1 := FltQuad.lit64 1 (by norm_num) (q := 1) (by norm_num)
  have ha := almostZero64
  have hu : ((binary64.u : ℚ) : ℝ) = 1 / 2 ^ 53 := by norm_num [BinPar.u, binary64]
  refine ⟨_, _, _, binary64.almostZero, ok64 h3.1 h1.1 ?_ ?_, ?_, ha.1, ?_, ?_, ok64 h3'.1 h1.1 ?_ ?_, ?_⟩
  · rw [h3.2]; norm_num
  · rw [h1.2]; norm_num
  · rw [h3.2]; norm_num
  · rw [ha.2]; norm_num
  · rw [ha.2, h3.2, h1.2, hu]; norm_num
  · rw [h3'.2]; norm_num
  · rw [h1.2]; norm_num
  · rw [ha.2, h3'.2, h1.2, hu]; norm_num

end vm
