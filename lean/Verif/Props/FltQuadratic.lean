import Verif.Lemmas.FltQuadratic
import Verif.Props.FltTriangle

/-!
C124: `solve_quadratic` in IEEE arithmetic.
-/

set_option linter.unusedSectionVars false
set_option linter.unusedSimpArgs false

namespace vm
variable {P : BinPar}

open FltQuad FltTri
open BinPar (zpow_add2 two_zpow_pos)

/-- The program with its parameters replaced by the real numbers is the one of the exact properties: the number of solutions agrees, and
so do the slots that contain a solution. -/
theorem C124_model (nan a b c e : ℝ) :
    (solveQuadraticG Real.sqrt nan a b c e).1 = (solveQuadratic a b c e).num ∧
    (∀ x, (solveQuadratic a b c e).sol 0 = some x → (solveQuadraticG Real.sqrt nan a b c e).2.1 = x) ∧
    (∀ x, (solveQuadratic a b c e).sol 1 = some x → (solveQuadraticG Real.sqrt nan a b c e).2.2 = x) := by
  unfold solveQuadraticG solveQuadratic
  simp only [Cmp.lt, decide_eq_true_eq]
  split_ifs <;> simp

namespace FltQuad

variable {s : Flt P.fmt → Flt P.fmt} {qnan a b c e : Flt P.fmt}

/-- The number of solutions in terms of the computed discriminant. -/
theorem count_iff (he : e.isFinite) (he0 : 0 ≤ e.val) (hD : (b / (2 * a) * (b / (2 * a)) - c / a).isFinite) :
    solveQuadraticG s qnan a b c e =
      if |(b / (2 * a) * (b / (2 * a)) - c / a).val| ≤ e.val then (1, -(b / (2 * a)), qnan)
      else if (b / (2 * a) * (b / (2 * a)) - c / a).val < 0 then (0, qnan, qnan)
      else (2, s (b / (2 * a) * (b / (2 * a)) - c / a) - b / (2 * a), -s (b / (2 * a) * (b / (2 * a)) - c / a) - b / (2 * a)) := by
  unfold solveQuadraticG
  simp only [isZero_flt hD he he0, lt_zero_flt hD, decide_eq_true_eq]

end FltQuad

/-- The number of solutions is right unless the discriminant is within rounding distance of the tolerance.  `D` is the exact discriminant
of the normalized polynomial, `M` its size.  -/
theorem C124_decision (P : BinPar) (s : Flt P.fmt → Flt P.fmt) (a b c e : Flt P.fmt) (h : QuadOk a b c) (he : e.isFinite) (he0 : 0 ≤ e.val) :
    let M := (b.val / (2 * a.val)) ^ 2 + |c.val / a.val|
    let D := (b.val / (2 * a.val)) ^ 2 - c.val / a.val
    (e.val + 5 * P.u * M < D → (solveQuadraticG s Flt.nan a b c e).1 = 2) ∧
    (D < -(e.val + 5 * P.u * M) → (solveQuadraticG s Flt.nan a b c e).1 = 0) ∧
    (|D| + 5 * P.u * M ≤ e.val → (solveQuadraticG s Flt.nan a b c e).1 = 1) := by
  obtain ⟨-, f2, e2⟩ := parts h
  rw [count_iff he he0 f2]
  generalize (b / (2 * a) * (b / (2 * a)) - c / a).val = D' at *
  generalize (b.val / (2 * a.val)) = Pe at *
  generalize c.val / a.val = Q at *
  rw [abs_le] at e2
  simp only
  refine ⟨fun hD => ?_, fun hD => ?_, fun hD => ?_⟩
  · rw [if_neg (by rw [abs_le]; intro hc; linarith [hc.2, e2.1]), if_neg (by linarith [e2.1])]
  · rw [if_neg (by rw [abs_le]; intro hc; linarith [hc.1, e2.2]), if_pos (by linarith [e2.2])]
  · rw [if_pos]
    rw [abs_le]
    have h1 := le_abs_self (Pe ^ 2 - Q)
    have h2 := neg_abs_le (Pe ^ 2 - Q)
    constructor <;> linarith [e2.1, e2.2]

/-- The reported solutions are finite numbers that nearly solve the equation `x² + (b/a) x + c/a = 0`, and if none is reported then the
discriminant is not positive up to rounding. -/
theorem C124_residual (P : BinPar) (s : Flt P.fmt → Flt P.fmt) (hs : FaithfulSqrt P s) (a b c e : Flt P.fmt) (h : QuadOk a b c)
    (he : e.isFinite) (he0 : 0 ≤ e.val) :
    let M := (b.val / (2 * a.val)) ^ 2 + |c.val / a.val|
    let res := fun x : ℚ => |x ^ 2 + b.val / a.val * x + c.val / a.val|
    let sol := solveQuadraticG s Flt.nan a b c e
    (sol.1 = 2 → sol.2.1.isFinite ∧ sol.2.2.isFinite ∧ res sol.2.1.val ≤ 32 * P.u * M ∧ res sol.2.2.val ≤ 32 * P.u * M) ∧
    (sol.1 = 1 → sol.2.1.isFinite ∧ sol.2.2 = Flt.nan ∧ res sol.2.1.val ≤ e.val + 6 * P.u * M) ∧
    (sol.1 = 0 → sol.2.1 = Flt.nan ∧ sol.2.2 = Flt.nan ∧ (b.val / (2 * a.val)) ^ 2 - c.val / a.val < 5 * P.u * M - e.val) ∧
    sol.1 ≤ 2 := by
  obtain ⟨⟨f1, e1⟩, f2, e2⟩ := parts h
  have hr := roots h hs
  have hb2 : b.val / a.val = 2 * (b.val / (2 * a.val)) := by
    have := h.a0
    field_simp
  have hu0 := P.u_pos
  have hu := P.u_le
  simp only
  rw [count_iff he he0 f2, hb2]
  generalize b / (2 * a) * (b / (2 * a)) - c / a = D' at *
  generalize b / (2 * a) = p at *
  generalize (b.val / (2 * a.val)) = Pe at *
  generalize c.val / a.val = Q at *
  split_ifs with h1 h2
  · refine ⟨fun hc => absurd hc (by norm_num), fun _ => ⟨Flt.neg_finite.2 f1, rfl, ?_⟩, fun hc => absurd hc (by norm_num), by norm_num⟩
    simp only [Flt.neg_val]
    have k1 : |(p.val - Pe) * (p.val - Pe)| ≤ P.u * (Pe ^ 2 + |Q|) := by
      have := mul_le_mul e1 e1 (abs_nonneg _) (by positivity)
      rw [abs_mul]
      have h4 : P.u * |Pe| * (P.u * |Pe|) = P.u * P.u * Pe ^ 2 := by rw [← sq_abs]; ring
      have h5 : P.u * P.u * Pe ^ 2 ≤ P.u * Pe ^ 2 := mul_le_mul_of_nonneg_right (by nlinarith) (sq_nonneg _)
      have h6 : 0 ≤ P.u * |Q| := by positivity
      nlinarith
    have k2 : (-p.val) ^ 2 + 2 * Pe * (-p.val) + Q = (p.val - Pe) * (p.val - Pe) - ((Pe ^ 2 - Q) - D'.val) - D'.val := by ring
    rw [k2]
    have k3 := abs_sub ((p.val - Pe) * (p.val - Pe) - ((Pe ^ 2 - Q) - D'.val)) D'.val
    have k4 := abs_sub ((p.val - Pe) * (p.val - Pe)) ((Pe ^ 2 - Q) - D'.val)
    rw [abs_sub_comm (Pe ^ 2 - Q)] at k4
    linarith
  · refine ⟨fun hc => absurd hc (by norm_num), fun hc => absurd hc (by norm_num), fun _ => ⟨rfl, rfl, ?_⟩, by norm_num⟩
    rw [abs_of_neg h2] at h1
    rw [abs_le] at e2
    linarith [e2.1]
  · obtain ⟨⟨g1, g2⟩, g3, g4⟩ := hr (not_lt.1 h2)
    exact ⟨fun _ => ⟨g1, g3, g2, g4⟩, fun hc => absurd hc (by norm_num), fun hc => absurd hc (by norm_num), by norm_num⟩

namespace FltQuad

/-- Rounding keeps the sign. -/
theorem round_sign (v : ℚ) : (Flt.round v : Flt P.fmt) ≠ Flt.nan ∧ (Cmp.lt (Flt.round v : Flt P.fmt) 0 = true → v < 0) ∧
    (Cmp.lt 0 (Flt.round v : Flt P.fmt) = true → 0 < v) := by
  by_cases h : |P.fl v| < P.bound
  · obtain ⟨h1, h2⟩ := is_round (P := P) (q := v) rfl h
    refine ⟨fun hc => by rw [hc] at h1; exact h1, fun hl => ?_, fun hl => ?_⟩
    · rw [lt_zero_flt h1, decide_eq_true_eq, h2] at hl
      by_contra hc
      exact absurd (P.fl_nonneg (not_lt.1 hc)) (not_le.2 hl)
    · rw [zero_lt_flt h1, decide_eq_true_eq, h2] at hl
      by_contra hc
      have := P.fl_mono (not_lt.1 hc)
      rw [P.fl_zero] at this
      linarith
  · rw [not_lt, le_abs] at h
    have hb := P.bound_pos
    rcases h with h | h
    · rw [Flt.round_pinf h]
      refine ⟨(by intro hc; cases hc), (by intro hc; cases hc), fun _ => ?_⟩
      by_contra hc
      have := P.fl_mono (not_lt.1 hc)
      rw [P.fl_zero] at this
      linarith
    · rw [Flt.round_ninf (by linarith)]
      refine ⟨(by intro hc; cases hc), fun _ => ?_, (by intro hc; cases hc)⟩
      by_contra hc
      have := P.fl_nonneg (not_lt.1 hc)
      linarith

/-- The sign of the computed discriminant is that of the exact one if the two quotients are exact; also if it overflows. -/
theorem disc_sign {p q : Flt P.fmt} (hp : p.isFinite) (hq : q.isFinite) :
    p * p - q ≠ Flt.nan ∧ (Cmp.lt (p * p - q) 0 = true → p.val ^ 2 < q.val) ∧ (Cmp.lt 0 (p * p - q) = true → q.val < p.val ^ 2) := by
  have hqr := P.fl_rep (Flt.rep_val q).1
  have hb := P.bound_pos
  by_cases h : |P.fl (p.val * p.val)| < P.bound
  · obtain ⟨h1, h2⟩ := is_mul (P := P) ⟨hp, rfl⟩ ⟨hp, rfl⟩ rfl h
    rw [Flt.sub_eq h1 hq, h2]
    obtain ⟨g1, g2, g3⟩ := round_sign (P := P) (P.fl (p.val * p.val) - q.val)
    refine ⟨g1, fun hl => ?_, fun hl => ?_⟩
    · have := g2 hl
      by_contra hc
      have := P.fl_mono (not_lt.1 hc)
      rw [hqr, sq] at this
      linarith
    · have := g3 hl
      by_contra hc
      have := P.fl_mono (not_lt.1 hc)
      rw [hqr, sq] at this
      linarith
  · have h0 := P.fl_nonneg (mul_self_nonneg p.val)
    rw [abs_of_nonneg h0, not_lt] at h
    have e : p * p = Flt.pinf := by rw [Flt.mul_eq hp hp]; exact Flt.round_pinf h
    obtain ⟨k1, k2⟩ := Flt.eq_fin hq
    have e2 : p * p - q = Flt.pinf := by rw [e, k2]; rfl
    rw [e2]
    refine ⟨(by intro hc; cases hc), (by intro hc; cases hc), fun _ => ?_⟩
    by_contra hc
    have h1 := P.fl_mono (not_lt.1 hc)
    rw [hqr, sq] at h1
    have h2 := (Flt.rep_val q).2
    rw [abs_lt] at h2
    linarith

/-- A comparison with zero leaves three possibilities. -/
theorem trichotomy {x : Flt P.fmt} (hx : x ≠ Flt.nan) (he : e.isFinite) (he0 : 0 ≤ e.val) (h1 : isZero x e = false) (h2 : Cmp.lt x 0 = false) :
    Cmp.lt 0 x = true := by
  cases x with
  | nan => exact absurd rfl hx
  | pinf => rfl
  | ninf => cases h2
  | fin q hq =>
    have hf : (Flt.fin q hq : Flt P.fmt).isFinite := trivial
    rw [isZero_flt hf he he0, decide_eq_false_iff_not] at h1
    rw [lt_zero_flt hf, decide_eq_false_iff_not] at h2
    rw [zero_lt_flt hf, decide_eq_true_eq]
    rcases lt_trichotomy (Flt.fin q hq : Flt P.fmt).val 0 with h | h | h
    · exact absurd h h2
    · rw [h, abs_zero] at h1; exact absurd he0 h1
    · exact h

end FltQuad

/-- If the quotients `b/(2a)` and `c/a` are numbers of the format, which is the case whenever `a` is 1 or -1 and `b` is even, then the
reported number is never wrong in the direction of the exact discriminant: none is reported only if there is no real solution, two are
reported only if there are two different ones.  No bound on the coefficients is needed. -/
theorem C124_count (P : BinPar) (s : Flt P.fmt → Flt P.fmt) (a b c e : Flt P.fmt) (ha : a.isFinite) (hb : b.isFinite) (hc : c.isFinite)
    (ha0 : a.val ≠ 0) (ha2 : 2 * |a.val| < P.bound) (hp : P.fmt.rep (b.val / (2 * a.val))) (hq : P.fmt.rep (c.val / a.val))
    (he : e.isFinite) (he0 : 0 ≤ e.val) :
    ((solveQuadraticG s Flt.nan a b c e).1 = 0 → ∀ x : ℝ, a.val * x ^ 2 + b.val * x + c.val ≠ 0) ∧
    ((solveQuadraticG s Flt.nan a b c e).1 = 2 → ∃ x y : ℝ, x ≠ y ∧ a.val * x ^ 2 + b.val * x + c.val = 0 ∧
      a.val * y ^ 2 + b.val * y + c.val = 0) := by
  have t := two_mul_val ha ha2
  have n0 : 2 * a.val ≠ 0 := mul_ne_zero two_ne_zero ha0
  have ip := is_div (P := P) ⟨hb, rfl⟩ t n0 (P.fl_rep hp.1) hp.2
  have iq := is_div (P := P) ⟨hc, rfl⟩ ⟨ha, rfl⟩ ha0 (P.fl_rep hq.1) hq.2
  obtain ⟨g1, g2, g3⟩ := disc_sign ip.1 iq.1
  rw [ip.2, iq.2] at g2 g3
  have ha0' : (a.val : ℝ) ≠ 0 := by exact_mod_cast ha0
  have key : ∀ x : ℝ, (a.val : ℝ) * x ^ 2 + b.val * x + c.val =
      a.val * ((x + b.val / (2 * a.val)) ^ 2 - ((b.val / (2 * a.val)) ^ 2 - c.val / a.val)) := by
    intro x; field_simp; ring
  unfold solveQuadraticG
  simp only
  split_ifs with h1 h2
  · exact ⟨fun hc => absurd hc (by norm_num), fun hc => absurd hc (by norm_num)⟩
  · refine ⟨fun _ x hx => ?_, fun hc => absurd hc (by norm_num)⟩
    have h3 : ((b.val : ℝ) / (2 * a.val)) ^ 2 < c.val / a.val := by exact_mod_cast g2 h2
    rw [key, mul_eq_zero] at hx
    rcases hx with hx | hx
    · exact ha0' hx
    · nlinarith [sq_nonneg (x + (b.val : ℝ) / (2 * a.val))]
  · refine ⟨fun hc => absurd hc (by norm_num), fun _ => ?_⟩
    have h3 : (c.val : ℝ) / a.val < ((b.val : ℝ) / (2 * a.val)) ^ 2 := by
      exact_mod_cast g3 (trichotomy g1 he he0 (by simpa using h1) (by simpa using h2))
    have h4 := Real.sq_sqrt (sub_pos.2 h3).le
    have h5 := Real.sqrt_pos.2 (sub_pos.2 h3)
    refine ⟨Real.sqrt (((b.val : ℝ) / (2 * a.val)) ^ 2 - c.val / a.val) - b.val / (2 * a.val),
      -Real.sqrt (((b.val : ℝ) / (2 * a.val)) ^ 2 - c.val / a.val) - b.val / (2 * a.val), by intro hc; linarith, ?_, ?_⟩
    · rw [key, sub_add_cancel, h4, sub_self, mul_zero]
    · rw [key, sub_add_cancel, neg_sq, h4, sub_self, mul_zero]

/-- If the leading coefficient is zero, then the function reports two solutions and neither of them is a finite number. -/
theorem C124_degenerate (P : BinPar) (s : Flt P.fmt → Flt P.fmt) (hs : FaithfulSqrt P s) (b c e : Flt P.fmt) (hb : b.isFinite)
    (hc : c.isFinite) (he : e.isFinite) :
    let sol := solveQuadraticG s Flt.nan 0 b c e
    sol.1 = 2 ∧ ¬ sol.2.1.isFinite ∧ ¬ sol.2.2.isFinite := by
  obtain ⟨kb, eb⟩ := Flt.eq_fin hb
  obtain ⟨kc, ec⟩ := Flt.eq_fin hc
  obtain ⟨ke, ee⟩ := Flt.eq_fin he
  have h2 : (2 * 0 : Flt P.fmt) = 0 := by
    exact Flt.mul_zero_fin (Flt.two_eq P).1
  have dv : ∀ q (k : P.fmt.rep q), (Flt.fin q k / 0 : Flt P.fmt) = Flt.infTimes q := fun q k => if_pos rfl
  have hi : ∀ q : ℚ, (Flt.infTimes q : Flt P.fmt) = Flt.nan ∨ (Flt.infTimes q : Flt P.fmt) = Flt.pinf ∨ (Flt.infTimes q : Flt P.fmt) = Flt.ninf := by
    intro q; unfold Flt.infTimes; split_ifs <;> simp
  have key : ∀ p D : Flt P.fmt, (p = Flt.nan ∨ p = Flt.pinf ∨ p = Flt.ninf) → (D = Flt.nan ∨ D = Flt.pinf) →
      ∀ sol : ℕ × Flt P.fmt × Flt P.fmt, sol = (if isZero D (Flt.fin e.val ke) then (1, -p, Flt.nan) else if Cmp.lt D 0 then (0, Flt.nan, Flt.nan)
        else (2, s D - p, -s D - p)) → sol.1 = 2 ∧ ¬ sol.2.1.isFinite ∧ ¬ sol.2.2.isFinite := by
    intro p D hp hD sol hsol
    rcases hD with rfl | rfl
    · have h1 : isZero (Flt.nan : Flt P.fmt) (Flt.fin e.val ke) = false := rfl
      have h2 : Cmp.lt (Flt.nan : Flt P.fmt) 0 = false := rfl
      rw [h1, h2, hs.nan] at hsol
      subst hsol
      rcases hp with rfl | rfl | rfl <;> exact ⟨rfl, fun h => h, fun h => h⟩
    · have h1 : isZero (Flt.pinf : Flt P.fmt) (Flt.fin e.val ke) = false := rfl
      have h2 : Cmp.lt (Flt.pinf : Flt P.fmt) 0 = false := rfl
      rw [h1, h2, hs.pinf] at hsol
      subst hsol
      rcases hp with rfl | rfl | rfl <;> exact ⟨rfl, fun h => h, fun h => h⟩
  refine key ((Flt.infTimes b.val : Flt P.fmt)) (Flt.infTimes b.val * Flt.infTimes b.val - Flt.infTimes c.val) (hi _) ?_ _ ?_
  · rcases hi b.val with h1 | h1 | h1 <;> rcases hi c.val with h3 | h3 | h3 <;> rw [h1, h3] <;> first | exact Or.inl rfl | exact Or.inr rfl
  · unfold solveQuadraticG
    rw [h2, ← ee, ← dv b.val kb, ← dv c.val kc, ← eb, ← ec]

namespace FltQuad

theorem gr_div {g z B : ℤ} {x y : Flt P.fmt} (hx : x.isFinite) (hy : y.isFinite ∧ y.val ≠ 0) (hq : x.val / y.val = z * 2 ^ g) (hg : P.Ok g)
    (hz : |z| ≤ B) (hB : B < 2 ^ P.p) : Gr g (x / y) z B := by
  rw [fin_div_fin hx hy.1 hy.2]
  exact Gr.round hg hq hz hB

/-- The square root of a square is exact. -/
theorem sqrt_exact {s : Flt P.fmt → Flt P.fmt} (hs : FaithfulSqrt P s) {x : Flt P.fmt} (hx : x.isFinite) {r : ℚ} (hr : P.fmt.rep r) (hr0 : 0 ≤ r)
    (h : x.val = r * r) : s x = Flt.fin r hr := by
  obtain ⟨k1, k2⟩ := Flt.eq_fin hx
  obtain ⟨q, hq, h3, h0, h4⟩ := hs.fin x.val k1 (by rw [h]; positivity)
  obtain ⟨h5, h6⟩ := h4 r hr hr0
  have e : q = r := by
    rcases lt_trichotomy q r with hl | hl | hl
    · exact absurd (h6 hl) (by rw [h]; exact lt_irrefl _)
    · exact hl
    · exact absurd (h5 hl) (by rw [h]; exact lt_irrefl _)
  rw [k2, h3]
  subst e
  rfl

theorem abs_add_self (x y : ℚ) : |x - y| + (x + y) = 2 * max x y := by
  rcases le_total x y with h | h
  · rw [max_eq_right h, abs_of_nonpos (by linarith)]; ring
  · rw [max_eq_left h, abs_of_nonneg (by linarith)]; ring

theorem abs_sub_self' (x y : ℚ) : -|x - y| + (x + y) = 2 * min x y := by
  rcases le_total x y with h | h
  · rw [min_eq_left h, abs_of_nonpos (by linarith)]; ring
  · rw [min_eq_right h, abs_of_nonneg (by linarith)]; ring

end FltQuad

/-- If the solutions are multiples of a power of two, for instance integers, of moderate size, then they are computed without any error,
the larger one first, unless half their distance squared is within the tolerance; then their mean is reported as the only one.  The
coefficients may be scaled by any number. -/
theorem C124_grid_roots (P : BinPar) (s : Flt P.fmt → Flt P.fmt) (hs : FaithfulSqrt P s) (g M zr zs : ℤ) (a b c e : Flt P.fmt)
    (ha : a.isFinite) (hb : b.isFinite) (hc : c.isFinite) (ha0 : a.val ≠ 0) (ha2 : 2 * |a.val| < P.bound) (hzr : |zr| ≤ M) (hzs : |zs| ≤ M)
    (hM : 4 * M ^ 2 < 2 ^ P.p) (hg1 : P.Ok (g - 1)) (hg2 : P.Ok (2 * g - 2))
    (hbv : b.val = -(a.val * (zr * 2 ^ g + zs * 2 ^ g))) (hcv : c.val = a.val * (zr * 2 ^ g * (zs * 2 ^ g)))
    (he : e.isFinite) (he0 : 0 ≤ e.val) :
    let x : ℚ := zr * 2 ^ g
    let y : ℚ := zs * 2 ^ g
    let sol := solveQuadraticG s Flt.nan a b c e
    (((x - y) / 2) ^ 2 ≤ e.val → sol.1 = 1 ∧ sol.2.1.isFinite ∧ sol.2.1.val = (x + y) / 2 ∧ sol.2.2 = Flt.nan) ∧
    (e.val < ((x - y) / 2) ^ 2 → sol.1 = 2 ∧ (sol.2.1.isFinite ∧ sol.2.1.val = max x y) ∧ sol.2.2.isFinite ∧ sol.2.2.val = min x y) := by
  have hM0 : 0 ≤ M := (abs_nonneg _).trans hzr
  have hM1 : M + M ≤ 4 * M ^ 2 := by nlinarith
  have t := two_mul_val ha ha2
  have n0 : 2 * a.val ≠ 0 := mul_ne_zero two_ne_zero ha0
  have e1 : (2 : ℚ) ^ g = 2 * 2 ^ (g - 1) := by
    rw [show g = (g - 1) + 1 by ring, zpow_add2, zpow_one]; ring_nf
  have e2 : (2 : ℚ) ^ (2 * g - 2) = 2 ^ (g - 1) * 2 ^ (g - 1) := by rw [← zpow_add2]; ring_nf
  have hw := two_zpow_pos (g - 1)
  have Gp : Gr (g - 1) (b / (2 * a)) (-(zr + zs)) (M + M) := by
    refine gr_div hb ⟨t.1, by rw [t.2]; exact n0⟩ ?_ hg1 (by rw [abs_neg]; exact (abs_add_le _ _).trans (add_le_add hzr hzs)) (by linarith)
    rw [t.2, hbv, e1]; push_cast; field_simp
  have Gq : Gr (2 * g - 2) (c / a) (4 * (zr * zs)) (4 * M ^ 2) := by
    refine gr_div hc ⟨ha, ha0⟩ ?_ hg2 ?_ hM
    · rw [hcv, e1, e2]; push_cast; field_simp
      try ring
    · rw [abs_mul, abs_mul, show |(4 : ℤ)| = 4 from rfl, sq]
      have := mul_le_mul hzr hzs (abs_nonneg _) hM0
      linarith
  have Gs : Gr (2 * g - 2) (b / (2 * a) * (b / (2 * a))) (-(zr + zs) * -(zr + zs)) ((M + M) * (M + M)) :=
    (Gp.mul Gp (by rw [show g - 1 + (g - 1) = 2 * g - 2 by ring]; exact hg2) (by nlinarith)).cast (by ring)
  have hD : |(zr - zs) ^ 2| ≤ 4 * M ^ 2 := by
    rw [abs_pow]
    have := (abs_sub zr zs).trans (add_le_add hzr hzs)
    have := mul_le_mul this this (abs_nonneg _) (by linarith)
    nlinarith
  have GD : Gr (2 * g - 2) (b / (2 * a) * (b / (2 * a)) - c / a) ((zr - zs) ^ 2) (4 * M ^ 2) := by
    rw [Flt.sub_eq Gs.fin Gq.fin]
    refine Gr.round hg2 ?_ hD hM
    rw [Gs.val, Gq.val]; push_cast; ring
  have vD : (b / (2 * a) * (b / (2 * a)) - c / a).val = ((zr * 2 ^ g - zs * 2 ^ g : ℚ) / 2) ^ 2 := by
    rw [GD.val, e1, e2]; push_cast; ring
  have h0 := sq_nonneg ((zr * 2 ^ g - zs * 2 ^ g : ℚ) / 2)
  have vp : (b / (2 * a)).val = -((zr * 2 ^ g + zs * 2 ^ g : ℚ) / 2) := by
    rw [Gp.val, e1]; push_cast; ring
  simp only
  rw [count_iff he he0 GD.fin, vD, abs_of_nonneg h0]
  refine ⟨fun h => ?_, fun h => ?_⟩
  · rw [if_pos h]
    refine ⟨rfl, Flt.neg_finite.2 Gp.fin, ?_, rfl⟩
    simp only [Flt.neg_val]
    rw [vp, neg_neg]
  · rw [if_neg (not_le.2 h), if_neg (not_lt.2 h0)]
    have hd : |zr - zs| ≤ M + M := (abs_sub zr zs).trans (add_le_add hzr hzs)
    have Gr1 : Gr (g - 1) (Flt.round (|zr - zs| * 2 ^ (g - 1) : ℚ) : Flt P.fmt) |zr - zs| (M + M) :=
      Gr.round hg1 (by push_cast; ring) (by rw [abs_abs]; exact hd) (by linarith)
    obtain ⟨k1, k2⟩ := Flt.eq_fin Gr1.fin
    have es : s (b / (2 * a) * (b / (2 * a)) - c / a) = Flt.round (|zr - zs| * 2 ^ (g - 1) : ℚ) := by
      rw [k2]
      refine sqrt_exact hs GD.fin k1 ?_ ?_
      · rw [Gr1.val]; positivity
      · rw [Gr1.val, GD.val, e2]
        push_cast
        rw [← sq_abs ((zr : ℚ) - zs)]; ring
    rw [es]
    have vr : (Flt.round (|zr - zs| * 2 ^ (g - 1) : ℚ) : Flt P.fmt).val = |(zr * 2 ^ g - zs * 2 ^ g : ℚ)| / 2 := by
      rw [Gr1.val, e1, ← sub_mul, abs_mul, abs_of_pos (show (0 : ℚ) < 2 * 2 ^ (g - 1) by linarith)]; push_cast; ring
    have c1 := abs_add_self (zr * 2 ^ g) (zs * 2 ^ g)
    have c2 := abs_sub_self' (zr * 2 ^ g) (zs * 2 ^ g)
    have m1 : (max (zr * 2 ^ g : ℚ) (zs * 2 ^ g)) = ((2 * max zr zs : ℤ) : ℚ) * 2 ^ (g - 1) := by
      rw [e1]; push_cast
      rw [max_mul_of_nonneg _ _ (by linarith : (0 : ℚ) ≤ 2 * 2 ^ (g - 1)) |>.symm]; ring
    have m2 : (min (zr * 2 ^ g : ℚ) (zs * 2 ^ g)) = ((2 * min zr zs : ℤ) : ℚ) * 2 ^ (g - 1) := by
      rw [e1]; push_cast
      rw [min_mul_of_nonneg _ _ (by linarith : (0 : ℚ) ≤ 2 * 2 ^ (g - 1)) |>.symm]; ring
    have a1 : |2 * max zr zs| ≤ M + M := by
      rw [abs_le] at *
      rcases le_total zr zs with h | h
      · rw [max_eq_right h]; constructor <;> linarith [hzs.1, hzs.2]
      · rw [max_eq_left h]; constructor <;> linarith [hzr.1, hzr.2]
    have a2 : |2 * min zr zs| ≤ M + M := by
      rw [abs_le] at *
      rcases le_total zr zs with h | h
      · rw [min_eq_left h]; constructor <;> linarith [hzr.1, hzr.2]
      · rw [min_eq_right h]; constructor <;> linarith [hzs.1, hzs.2]
    have R1 : Gr (g - 1) (Flt.round (|zr - zs| * 2 ^ (g - 1) : ℚ) - b / (2 * a)) (2 * max zr zs) (M + M) := by
      rw [Flt.sub_eq Gr1.fin Gp.fin]
      refine Gr.round hg1 ?_ a1 (by linarith)
      rw [vr, vp, ← m1]; linarith
    have R2 : Gr (g - 1) (-Flt.round (|zr - zs| * 2 ^ (g - 1) : ℚ) - b / (2 * a)) (2 * min zr zs) (M + M) := by
      rw [Flt.sub_eq Gr1.neg.fin Gp.fin, Flt.neg_val]
      refine Gr.round hg1 ?_ a2 (by linarith)
      rw [vr, vp, ← m2]; linarith
    exact ⟨rfl, ⟨R1.fin, by rw [m1]; exact R1.val⟩, R2.fin, by rw [m2]; exact R2.val⟩

namespace FltQuad

theorem int64 (n : ℤ) (h : |n| ≤ 2 ^ 53) : (Flt.round n : Flt binary64.fmt).isFinite ∧ (Flt.round n : Flt binary64.fmt).val = n :=
  Flt.int_finite h

theorem lit64 (n : ℤ) (h : |n| ≤ 2 ^ 53) {q : ℚ} (hq : (n : ℚ) = q) : (Flt.round q : Flt binary64.fmt).isFinite ∧
    (Flt.round q : Flt binary64.fmt).val = q := by rw [← hq]; exact int64 n h

theorem normal_one {x : ℚ} (h : 1 ≤ |x|) : NormalOrZero P x :=
  Or.inr (le_trans (zpow_le_one_of_nonpos₀ (by norm_num) (by have := P.hmin; omega)) h)

theorem quadOk64 {a b c : Flt binary64.fmt} {qa qb qc : ℚ} (ha : a.isFinite ∧ a.val = qa) (hb : b.isFinite ∧ b.val = qb)
    (hc : c.isFinite ∧ c.val = qc) (h0 : qa ≠ 0) (h1 : 1 ≤ |(qb / (2 * qa)) ^ 2|) (h2 : 1 ≤ |qc / qa|)
    (h3 : |8 * ((qb / (2 * qa)) ^ 2 + |qc / qa| + 1)| ≤ 2 ^ 100) (h4 : |2 * qa| ≤ 2 ^ 100) : QuadOk a b c := by
  obtain ⟨ha, rfl⟩ := ha
  obtain ⟨hb, rfl⟩ := hb
  obtain ⟨hc, rfl⟩ := hc
  refine ⟨ha, hb, hc, h0, ?_, normal_one h1, normal_one h2, lt_of_le_of_lt (le_abs_self _) (lt_bound64 h3)⟩
  rw [← abs_two, ← abs_mul]; exact lt_bound64 h4

end FltQuad

/-- The smaller solution of `x² - 2^28 x + 1 = 0` is lost: the number zero is reported, although the constant coefficient is 1 and all
coefficients are integers.  Both solutions are positive. -/
theorem C124_cancellation_fails : ∃ a b c e : Flt binary64.fmt, QuadOk a b c ∧ e.isFinite ∧ 0 < e.val ∧
    ∀ s, FaithfulSqrt binary64 s → (solveQuadraticG s Flt.nan a b c e).1 = 2 ∧ (solveQuadraticG s Flt.nan a b c e).2.2.isFinite ∧
      (solveQuadraticG s Flt.nan a b c e).2.2.val = 0 ∧
      ∀ x : ℝ, a.val * x ^ 2 + b.val * x + c.val = 0 → 0 < x := by
  have ia := lit64 1 (by norm_num) (q := 1) (by norm_num)
  have ib := lit64 (-2 ^ 28) (by norm_num) (q := -268435456) (by norm_num)
  have ic := lit64 1 (by norm_num) (q := 1) (by norm_num)
  have i2 := Flt.two_eq binary64
  have x1 := is_mul (c := 2) i2 ia (by fl_num (-51) (2 ^ 52)) (lt_bound64 (by norm_num [abs_le]))
  have x2 := is_div (c := -134217728) ib x1 (by norm_num) (by fl_num (-25) (-2 ^ 52)) (lt_bound64 (by norm_num [abs_le]))
  have x3 := is_div (c := 1) ic ia (by norm_num) (by fl_num (-52) (2 ^ 52)) (lt_bound64 (by norm_num [abs_le]))
  have x4 := is_mul (c := 2 ^ 54) x2 x2 (by fl_num (2) (2 ^ 52)) (lt_bound64 (by norm_num [abs_le]))
  have x5 := is_sub (c := 2 ^ 54) x4 x3 (by fl_tie (1) (2 ^ 53)) (lt_bound64 (by norm_num [abs_le]))
  refine ⟨Flt.round 1, Flt.round (-268435456), Flt.round 1, Flt.round 1, quadOk64 ia ib ic (by norm_num) (by norm_num) (by norm_num) (by norm_num) (by norm_num), ia.1, ?_, ?_⟩
  · rw [ia.2]; norm_num
  intro s hs
  rw [count_iff ia.1 (by rw [ia.2]; norm_num) x5.1, x5.2, ia.2, if_neg (by norm_num), if_neg (by norm_num)]
  have i27 := lit64 (2 ^ 27) (by norm_num) (q := 134217728) (by norm_num)
  obtain ⟨k1, k2⟩ := Flt.eq_fin i27.1
  have es : s (Flt.round (-268435456) / (2 * Flt.round 1) * (Flt.round (-268435456) / (2 * Flt.round 1)) - Flt.round 1 / Flt.round 1) =
      Flt.round 134217728 := by
    rw [k2]
    exact sqrt_exact hs x5.1 k1 (by rw [i27.2]; norm_num) (by rw [i27.2, x5.2]; norm_num)
  rw [es]
  have x6 := is_sub (c := 0) (a := -134217728) ⟨Flt.neg_finite.2 i27.1, by rw [Flt.neg_val, i27.2]⟩ x2 (by norm_num [BinPar.fl_zero])
    (lt_bound64 (by norm_num [abs_le]))
  refine ⟨rfl, x6.1, x6.2, fun x hx => ?_⟩
  rw [ib.2] at hx
  push_cast at hx
  nlinarith [sq_nonneg x]

/-- If `b/(2a)` or `c/a` is rounded, then an equation with integer coefficients and two different real solutions can be reported to have
none. -/
theorem C124_count_fails : ∃ a b c e : Flt binary64.fmt, QuadOk a b c ∧ e.isFinite ∧ 0 < e.val ∧
    (∀ s, solveQuadraticG s Flt.nan a b c e = (0, Flt.nan, Flt.nan)) ∧
    ∃ x y : ℚ, x ≠ y ∧ a.val * x ^ 2 + b.val * x + c.val = 0 ∧ a.val * y ^ 2 + b.val * y + c.val = 0 := by
  have ia := lit64 3 (by norm_num) (q := 3) (by norm_num)
  have ib := lit64 102810947 (by norm_num) (q := 102810947) (by norm_num)
  have ic := lit64 880840901919734 (by norm_num) (q := 880840901919734) (by norm_num)
  have ie : (Flt.round (1 / 1024) : Flt binary64.fmt).isFinite ∧ (Flt.round (1 / 1024) : Flt binary64.fmt).val = 1 / 1024 :=
    is_round (by fl_num (-62) (2 ^ 52)) (lt_bound64 (by norm_num [abs_le]))
  have i2 := Flt.two_eq binary64
  have x1 := is_mul (c := 6) i2 ia (by fl_num (-50) (6 * 2 ^ 50)) (lt_bound64 (by norm_num [abs_le]))
  have x2 := is_div (c := 4599683906622805 / 268435456) ib x1 (by norm_num) (by fl_num (-28) (4599683906622805)) (lt_bound64 (by norm_num [abs_le]))
  have x3 := is_div (c := 4697818143571915 / 16) ic ia (by norm_num) (by fl_num (-4) (4697818143571915)) (lt_bound64 (by norm_num [abs_le]))
  have x4 := is_mul (c := 4697818143571914 / 16) x2 x2 (by fl_num (-4) (4697818143571914)) (lt_bound64 (by norm_num [abs_le]))
  have x5 := is_sub (c := -1 / 16) x4 x3 (by fl_num (-56) (-4503599627370496)) (lt_bound64 (by norm_num [abs_le]))
  refine ⟨Flt.round 3, Flt.round 102810947, Flt.round 880840901919734, Flt.round (1 / 1024), quadOk64 ia ib ic (by norm_num) (by norm_num) (by norm_num) (by norm_num) (by norm_num), ie.1, ?_, ?_,
    -17135158, -102810946 / 6, by norm_num, ?_, ?_⟩
  · rw [ie.2]; norm_num
  · intro s
    rw [count_iff ie.1 (by rw [ie.2]; norm_num) x5.1, x5.2, ie.2, if_neg (by norm_num [abs_of_neg]), if_pos (by norm_num)]
  · rw [ia.2, ib.2, ic.2]; norm_num
  · rw [ia.2, ib.2, ic.2]; norm_num

/-- The hypotheses of the accuracy theorems hold for `x² - 3x + 1`, whose solutions are irrational; two are reported. -/
example : ∃ a b c e : Flt binary64.fmt, QuadOk a b c ∧ e.isFinite ∧ 0 ≤ e.val ∧ ∃ s, FaithfulSqrt binary64 s ∧
    (solveQuadraticG s Flt.nan a b c e).1 = 2 := by
  have ia := lit64 1 (by norm_num) (q := 1) (by norm_num)
  have ib := lit64 (-3) (by norm_num) (q := -3) (by norm_num)
  have hq := quadOk64 ia ib ia (by norm_num) (by norm_num) (by norm_num) (by norm_num) (by norm_num)
  obtain ⟨s, hs⟩ := exists_correctSqrt binary64
  refine ⟨_, _, _, 0, hq, Flt.zero_finite, le_refl _, s, hs.faithful, (C124_decision binary64 s _ _ _ 0 hq Flt.zero_finite (le_refl _)).1 ?_⟩
  rw [ia.2, ib.2, show (0 : Flt binary64.fmt).val = 0 from rfl]
  have := binary64.u_le
  have := binary64.u_pos
  norm_num
  linarith [show binary64.u ≤ 1 / 2 ^ 53 by norm_num [BinPar.u, binary64]]

/-- No solution is reported for `x² + 2x + 5`. -/
example : ∃ a b c e : Flt binary64.fmt, QuadOk a b c ∧ e.isFinite ∧ 0 ≤ e.val ∧ ∀ s, (solveQuadraticG s Flt.nan a b c e).1 = 0 := by
  have ia := lit64 1 (by norm_num) (q := 1) (by norm_num)
  have ib := lit64 2 (by norm_num) (q := 2) (by norm_num)
  have ic := lit64 5 (by norm_num) (q := 5) (by norm_num)
  have hq := quadOk64 ia ib ic (by norm_num) (by norm_num) (by norm_num) (by norm_num) (by norm_num)
  refine ⟨_, _, _, 0, hq, Flt.zero_finite, le_refl _, fun s => (C124_decision binary64 s _ _ _ 0 hq Flt.zero_finite (le_refl _)).2.1 ?_⟩
  rw [ia.2, ib.2, ic.2, show (0 : Flt binary64.fmt).val = 0 from rfl]
  norm_num
  linarith [show binary64.u ≤ 1 / 2 ^ 53 by norm_num [BinPar.u, binary64]]

/-- `x² + 2x + 5` also satisfies the hypotheses of `C124_count`. -/
example : ∃ a b c : Flt binary64.fmt, a.isFinite ∧ b.isFinite ∧ c.isFinite ∧ a.val ≠ 0 ∧ 2 * |a.val| < binary64.bound ∧
    binary64.fmt.rep (b.val / (2 * a.val)) ∧ binary64.fmt.rep (c.val / a.val) ∧ c.val = 5 := by
  have ia := lit64 1 (by norm_num) (q := 1) (by norm_num)
  have ib := lit64 2 (by norm_num) (q := 2) (by norm_num)
  have ic := lit64 5 (by norm_num) (q := 5) (by norm_num)
  refine ⟨_, _, _, ia.1, ib.1, ic.1, by rw [ia.2]; norm_num, ?_, ?_, ?_, ic.2⟩
  · rw [ia.2, ← abs_two, ← abs_mul]; exact lt_bound64 (by norm_num [abs_le])
  · rw [ia.2, ib.2, mul_one, div_self two_ne_zero]; exact binary64.fmt.rep_one
  · rw [ia.2, div_one]; exact Flt.rep_val _

/-- `3x² - 9x - 30` has the solutions 5 and -2, and they are computed exactly. -/
example : ∃ a b c : Flt binary64.fmt, a.val = 3 ∧ b.val = -9 ∧ c.val = -30 ∧ ∀ s, FaithfulSqrt binary64 s →
    (solveQuadraticG s Flt.nan a b c 0).1 = 2 ∧ (solveQuadraticG s Flt.nan a b c 0).2.1.val = 5 ∧
    (solveQuadraticG s Flt.nan a b c 0).2.2.val = -2 := by
  have ia := lit64 3 (by norm_num) (q := 3) (by norm_num)
  have ib := lit64 (-9) (by norm_num) (q := -9) (by norm_num)
  have ic := lit64 (-30) (by norm_num) (q := -30) (by norm_num)
  refine ⟨_, _, _, ia.2, ib.2, ic.2, fun s hs => ?_⟩
  have := (C124_grid_roots binary64 s hs 0 5 5 (-2) _ _ _ 0 ia.1 ib.1 ic.1 (by rw [ia.2]; norm_num)
    (by rw [ia.2, ← abs_two, ← abs_mul]; exact lt_bound64 (by norm_num [abs_le])) (by norm_num) (by norm_num) (by norm_num [binary64])
    ⟨by norm_num [binary64], by norm_num [binary64]⟩ ⟨by norm_num [binary64], by norm_num [binary64]⟩ (by rw [ia.2, ib.2]; norm_num)
    (by rw [ia.2, ic.2]; norm_num) Flt.zero_finite (le_refl _)).2 (by rw [show (0 : Flt binary64.fmt).val = 0 from rfl]; norm_num)
  refine ⟨this.1, this.2.1.2.trans (by norm_num), this.2.2.2.trans (by norm_num)⟩

end vm
