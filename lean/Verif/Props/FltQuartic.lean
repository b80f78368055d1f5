import Verif.Model.QuarticG
import Verif.Props.FltCubic

/-!
C157: `solve_quartic` in IEEE arithmetic.
-/

set_option linter.unusedSectionVars false
set_option linter.unusedSimpArgs false

namespace vm
variable {P : BinPar}

open FltCub FltRot FltAng
namespace FltQua
end FltQua
open FltQua

namespace FltQua

variable {T : Type*} [Cmp T] [Zero T] [One T] [OfNat T 2] [OfNat T 3] [Neg T] [Add T] [Sub T] [Mul T] [Div T]

/-- `solve_quadratic` reports at most two solutions, and the slots that it does not report contain NaN. -/
theorem quadratic_shape (sqrt : T → T) (nan a b c e : T) :
    solveQuadraticG sqrt nan a b c e = (0, nan, nan) ∨ (∃ x, solveQuadraticG sqrt nan a b c e = (1, x, nan)) ∨
    ∃ x y, solveQuadraticG sqrt nan a b c e = (2, x, y) := by
  unfold solveQuadraticG
  simp only
  split_ifs
  · exact Or.inr (Or.inl ⟨_, rfl⟩)
  · exact Or.inl rfl
  · exact Or.inr (Or.inr ⟨_, _, rfl⟩)

/-- The same for `solve_cubic`, which always reports a solution. -/
theorem cubic_shape (sqrt cbrt acos cos : T → T) (pi nan third half twt a b c d e : T) :
    let S := solveCubicG sqrt cbrt acos cos pi nan third half twt a b c d e
    (∃ x, S = (1, x, nan, nan)) ∨ (∃ x y, S = (2, x, y, nan)) ∨ ∃ x y z, S = (3, x, y, z) := by
  intro S
  have key : ∀ p q, let s := solveDepressedG sqrt cbrt acos cos pi nan third p q e
      (∃ x, s = (1, x, nan, nan)) ∨ (∃ x y, s = (2, x, y, nan)) ∨ ∃ x y z, s = (3, x, y, z) := by
    intro p q
    unfold solveDepressedG
    simp only
    split_ifs
    · exact Or.inl ⟨_, rfl⟩
    · exact Or.inr (Or.inl ⟨_, _, rfl⟩)
    · exact Or.inr (Or.inr ⟨_, _, _, rfl⟩)
    · exact Or.inl ⟨_, rfl⟩
  have e0 : S = resubstituteG (solveDepressedG sqrt cbrt acos cos pi nan third _ _ e) _ := rfl
  rw [e0]
  rcases key _ _ with ⟨x, h⟩ | ⟨x, y, h⟩ | ⟨x, y, z, h⟩
  · rw [h]; exact Or.inl ⟨x - _, rfl⟩
  · rw [h]; exact Or.inr (Or.inl ⟨x - _, y - _, rfl⟩)
  · rw [h]; exact Or.inr (Or.inr ⟨x - _, y - _, z - _, rfl⟩)

end FltQua

namespace FltQua

theorem slot0_some (a b c d e : ℝ) : ∃ z, (solveCubic a b c d e).sol 0 = some z := by
  have key : ∀ p q : ℝ, ∃ z, (solveDepressed p q e).sol 0 = some z := by
    intro p q
    unfold solveDepressed
    simp only
    split_ifs <;> exact ⟨_, rfl⟩
  unfold solveCubic
  simp only
  obtain ⟨z, hz⟩ := key (1 / 3 * (-(1 / 3) * (b / a) * (b / a) + c / a)) (1 / 2 * (2 / 27 * (b / a) * (b / a) * (b / a) - 1 / 3 * (b / a) * (c / a) + d / a))
  unfold resubstitute
  simp only
  rw [hz]
  split_ifs
  · exact ⟨_, rfl⟩
  · exact ⟨_, rfl⟩

theorem store_model {nan : ℝ} {s1 s2 : Sols 2} {t1 t2 : ℕ × ℝ × ℝ} (h1 : t1.1 = s1.num) (h10 : ∀ x, s1.sol 0 = some x → t1.2.1 = x)
    (h11 : ∀ x, s1.sol 1 = some x → t1.2.2 = x) (h2 : t2.1 = s2.num) (h20 : ∀ x, s2.sol 0 = some x → t2.2.1 = x)
    (h21 : ∀ x, s2.sol 1 = some x → t2.2.2 = x) (hn : s1.num ≤ 2) :
    (storeQuadraticsG nan t1 t2).1 = (storeQuadratics s1 s2).num ∧
    ∀ i x, (storeQuadratics s1 s2).sol i = some x → (storeQuadraticsG nan t1 t2).2 i = x := by
  unfold storeQuadraticsG storeQuadratics
  simp only
  rw [h1, h2]
  refine ⟨rfl, fun i x => ?_⟩
  have c : s1.num = 0 ∨ s1.num = 1 ∨ s1.num = 2 := by omega
  rcases c with c | c | c <;> rw [c] <;> fin_cases i <;> simp [Function.update] <;>
    first | exact h10 x | exact h11 x | exact h20 x | exact h21 x

theorem quadratic_num (a b c e : ℝ) : (solveQuadratic a b c e).num ≤ 2 := by
  unfold solveQuadratic
  simp only
  split_ifs <;> simp

theorem depressed_quartic_model (nan p q r e : ℝ) :
    let S := solveDepressedQuarticG Real.sqrt cbrt Real.arccos Real.cos Real.pi nan (fun q : ℚ => (q : ℝ)) p q r e
    S.1 = (solveDepressedQuartic p q r e).num ∧ ∀ i x, (solveDepressedQuartic p q r e).sol i = some x → S.2 i = x := by
  unfold solveDepressedQuarticG solveDepressedQuartic
  simp only
  have l3 : ((1 / 3 : ℚ) : ℝ) = 1 / 3 := by norm_num
  have l2 : ((1 / 2 : ℚ) : ℝ) = 1 / 2 := by norm_num
  have l27 : ((2 / 27 : ℚ) : ℝ) = 2 / 27 := by norm_num
  have l8 : ((1 / 8 : ℚ) : ℝ) = 1 / 8 := by norm_num
  rw [l3, l2, l27, l8]
  by_cases hr : isZero r e = true
  · rw [if_pos hr, if_pos hr]
    obtain ⟨h0, h1, h2, h3⟩ := C156_model nan 1 0 p q e
    generalize solveCubicG Real.sqrt cbrt Real.arccos Real.cos Real.pi nan (1 / 3) (1 / 2) (2 / 27) 1 0 p q e = S at *
    generalize solveCubic 1 0 p q e = S' at *
    simp only
    rw [h0]
    refine ⟨rfl, fun i x => ?_⟩
    split_ifs with c1 c2
    · intro h; exact Option.some.inj h
    · fin_cases i
      · exact h1 x
      · exact h2 x
      · exact h3 x
      · exact absurd c2 (by decide)
    · intro h; cases h
  · rw [if_neg hr, if_neg hr]
    obtain ⟨-, h1, -⟩ := C156_model nan 1 (-(1 / 2) * p) (-r) (1 / 2 * r * p - 1 / 8 * q * q) e
    obtain ⟨z, hz⟩ := slot0_some 1 (-(1 / 2) * p) (-r) (1 / 2 * r * p - 1 / 8 * q * q) e
    rw [h1 z hz, hz]
    simp only
    have sq : ∀ x, sqrtOrFailG Real.sqrt x e = sqrtOrFail x e := by
      intro x
      unfold sqrtOrFailG sqrtOrFail
      simp only [Cmp.lt, decide_eq_true_eq]
    rw [sq, sq]
    cases sqrtOrFail (z * z - r) e with
    | none => exact ⟨rfl, fun i x h => by cases h⟩
    | some u =>
      cases sqrtOrFail (2 * z - p) e with
      | none => exact ⟨rfl, fun i x h => by cases h⟩
      | some v =>
        simp only [Cmp.lt, decide_eq_true_eq]
        obtain ⟨a1, a2, a3⟩ := C124_model nan 1 (if q < 0 then -v else v) (z - u) e
        obtain ⟨b1, b2, b3⟩ := C124_model nan 1 (if q < 0 then v else -v) (z + u) e
        exact store_model a1 a2 a3 b1 b2 b3 (quadratic_num _ _ _ _)

end FltQua

/-- The program with its parameters replaced by the real numbers is the one of the exact properties: the number of solutions agrees, and
so do the slots that contain a solution. -/
theorem C157_model (nan a b c d e eps : ℝ) :
    let S := solveQuarticG Real.sqrt cbrt Real.arccos Real.cos Real.pi nan (fun q : ℚ => (q : ℝ)) a b c d e eps
    S.1 = (solveQuartic a b c d e eps).num ∧ ∀ i x, (solveQuartic a b c d e eps).sol i = some x → S.2 i = x := by
  unfold solveQuarticG solveQuartic
  simp only
  have l1 : ((3 / 8 : ℚ) : ℝ) = 3 / 8 := by norm_num
  have l2 : ((1 / 2 : ℚ) : ℝ) = 1 / 2 := by norm_num
  have l3 : ((3 / 256 : ℚ) : ℝ) = 3 / 256 := by norm_num
  have l4 : ((1 / 8 : ℚ) : ℝ) = 1 / 8 := by norm_num
  have l5 : ((1 / 16 : ℚ) : ℝ) = 1 / 16 := by norm_num
  have l6 : ((1 / 4 : ℚ) : ℝ) = 1 / 4 := by norm_num
  rw [l1, l2, l3, l4, l5, l6]
  obtain ⟨h0, h1⟩ := FltQua.depressed_quartic_model nan (-(3 / 8) * (b / a) * (b / a) + c / a)
    (1 / 8 * (b / a) * (b / a) * (b / a) - 1 / 2 * (b / a) * (c / a) + d / a)
    (-(3 / 256) * (b / a) * (b / a) * (b / a) * (b / a) + 1 / 16 * (b / a) * (b / a) * (c / a) - 1 / 4 * (b / a) * (d / a) + e / a) eps
  generalize solveDepressedQuarticG Real.sqrt cbrt Real.arccos Real.cos Real.pi nan (fun q : ℚ => (q : ℝ)) (-(3 / 8) * (b / a) * (b / a) + c / a)
    (1 / 8 * (b / a) * (b / a) * (b / a) - 1 / 2 * (b / a) * (c / a) + d / a)
    (-(3 / 256) * (b / a) * (b / a) * (b / a) * (b / a) + 1 / 16 * (b / a) * (b / a) * (c / a) - 1 / 4 * (b / a) * (d / a) + e / a) eps = S at *
  unfold resubstitute
  simp only
  rw [h0]
  exact ⟨rfl, fun i x hx => FltCub.slot_model i.val (h1 i) x hx⟩

/-- For every number type, whatever the functions of the library compute: `solve_quartic` reports at most four solutions (and so never writes outside of its
array), and the slots that it does not report contain NaN.  `solve_cubic` reports at least one and at most three. -/
theorem C157_shape {T : Type*} [Cmp T] [Zero T] [One T] [OfNat T 2] [OfNat T 3] [Neg T] [Add T] [Sub T] [Mul T] [Div T]
    (sqrt cbrt acos cos : T → T) (pi nan : T) (lit : ℚ → T) (a b c d e eps : T) :
    let S := solveQuarticG sqrt cbrt acos cos pi nan lit a b c d e eps
    S.1 ≤ 4 ∧ ∀ i : Fin 4, S.1 ≤ i.val → S.2 i = nan := by
  intro S
  have key : ∀ p q r : T, let s := solveDepressedQuarticG sqrt cbrt acos cos pi nan lit p q r eps
      s.1 ≤ 4 ∧ ∀ i : Fin 4, s.1 ≤ i.val → s.2 i = nan := by
    intro p q r s
    have e0 : s = solveDepressedQuarticG sqrt cbrt acos cos pi nan lit p q r eps := rfl
    unfold solveDepressedQuarticG at e0
    by_cases h : isZero r eps
    · rw [if_pos h] at e0
      rw [e0]
      rcases FltQua.cubic_shape sqrt cbrt acos cos pi nan (lit (1 / 3)) (lit (1 / 2)) (lit (2 / 27)) 1 0 p q eps with ⟨x, h1⟩ | ⟨x, y, h1⟩ | ⟨x, y, z, h1⟩
      · rw [h1]
        refine ⟨by norm_num, fun i hi => ?_⟩
        fin_cases i <;> simp at hi ⊢
      · rw [h1]
        refine ⟨by norm_num, fun i hi => ?_⟩
        fin_cases i <;> simp at hi ⊢
      · rw [h1]
        refine ⟨by norm_num, fun i hi => ?_⟩
        fin_cases i <;> simp at hi ⊢
    · rw [if_neg h] at e0
      simp only at e0
      generalize (solveCubicG sqrt cbrt acos cos pi nan (lit (1 / 3)) (lit (1 / 2)) (lit (2 / 27)) 1 (-lit (1 / 2) * p) (-r)
        (lit (1 / 2) * r * p - lit (1 / 8) * q * q) eps).2.1 = z at *
      cases h1 : sqrtOrFailG sqrt (z * z - r) eps with
      | none => rw [h1] at e0; rw [e0]; exact ⟨by norm_num, fun _ _ => rfl⟩
      | some u =>
        rw [h1] at e0
        cases h2 : sqrtOrFailG sqrt (2 * z - p) eps with
        | none => rw [h2] at e0; rw [e0]; exact ⟨by norm_num, fun _ _ => rfl⟩
        | some v =>
          rw [h2] at e0
          simp only at e0
          rcases FltQua.quadratic_shape sqrt nan 1 (if Cmp.lt q 0 then -v else v) (z - u) eps with h3 | ⟨x, h3⟩ | ⟨x, y, h3⟩ <;>
          rcases FltQua.quadratic_shape sqrt nan 1 (if Cmp.lt q 0 then v else -v) (z + u) eps with h4 | ⟨x', h4⟩ | ⟨x', y', h4⟩ <;>
          · rw [h3, h4] at e0
            rw [e0]
            refine ⟨by norm_num [storeQuadraticsG], fun i hi => ?_⟩
            fin_cases i <;> simp [storeQuadraticsG, Function.update] at hi ⊢
  obtain ⟨h1, h2⟩ := key _ _ _
  refine ⟨h1, fun i hi => ?_⟩
  have : S.2 i = if i.val < S.1 then _ else _ := rfl
  rw [this, if_neg (not_lt.2 hi)]
  exact h2 i hi

namespace FltQua

theorem sub_ne_nan {x y : Flt P.fmt} (hx : x ≠ Flt.nan) (hy : y.isFinite) : x - y ≠ Flt.nan := by
  rcases x with _ | _ | _ | ⟨q, hq⟩
  · exact absurd rfl hx
  · obtain ⟨h, e⟩ := Flt.eq_fin hy
    rw [e]; intro h; cases h
  · obtain ⟨h, e⟩ := Flt.eq_fin hy
    rw [e]; intro h; cases h
  · have f : (Flt.fin q hq : Flt P.fmt).isFinite := trivial
    rw [Flt.sub_eq f hy]
    exact (FltQuad.round_sign _).1

theorem fin_ne_nan {x : Flt P.fmt} (hx : x.isFinite) : x ≠ Flt.nan := fun h => by rw [h] at hx; exact hx

theorem big (hP : P = binary32 ∨ P = binary64) : (10 : ℝ) ^ 12 < P.bound := by
  have : |(10 : ℚ) ^ 12| < P.bound := by
    rcases hP with rfl | rfl
    · exact lt_bound32 (by norm_num)
    · exact lt_bound64 (by norm_num)
  rw [abs_of_pos (by norm_num)] at this
  exact_mod_cast this

/-- The square root of a finite number is small. -/
theorem root (hP : P = binary32 ∨ P = binary64) {s : Flt P.fmt → Flt P.fmt} (hs : FaithfulSqrt P s) {x : Flt P.fmt} (hx : x.isFinite) (x0 : 0 ≤ x.val) :
    (s x).isFinite ∧ 0 ≤ (s x).val ∧ ((s x).val : ℝ) ^ 2 ≤ 1.1 * P.bound := by
  have hp := fmt_p hP
  have u0 := Ap.u_pos P
  have hu := (ok_one hp).u
  obtain ⟨k1, k2⟩ := Flt.eq_fin hx
  obtain ⟨r, hr, er, hf⟩ := hs.fin x.val k1 x0
  have er' : s x = Flt.fin r hr := by rw [← er, ← k2]
  have gf : (Flt.fin r hr : Flt P.fmt).isFinite ∧ (Flt.fin r hr : Flt P.fmt).val = r := ⟨trivial, rfl⟩
  obtain ⟨g1, -⟩ := hf.sq k1 x0
  have g1' : (r : ℝ) ^ 2 ≤ x.val * (1 + 2 * P.u) ^ 2 := by exact_mod_cast g1
  have pb : (x.val : ℝ) < P.bound := by
    have := (abs_lt.1 (Flt.rep_val x).2).2
    exact_mod_cast this
  rw [er']
  refine ⟨gf.1, by rw [gf.2]; exact hf.1, ?_⟩
  rw [gf.2]
  have h1 : (1 + 2 * (P.u : ℝ)) ^ 2 ≤ 1.1 := by nlinarith
  have h2 : (0 : ℝ) ≤ x.val := by exact_mod_cast x0
  nlinarith

theorem small_of_sq {B x : ℝ} (hB : (10 : ℝ) ^ 12 < B) (h : x ^ 2 ≤ 1.1 * B) : |x| ≤ 0.01 * B := by
  refine abs_le_of_sq_le_sq (h.trans ?_) (by linarith)
  nlinarith

/-- One of the two quadratic equations. -/
theorem quadratic (hP : P = binary32 ∨ P = binary64) {s : Flt P.fmt → Flt P.fmt} (hs : FaithfulSqrt P s) {b c e : Flt P.fmt} (he : e.isFinite)
    (he0 : 0 ≤ e.val) (hb : b.isFinite) (hb2 : (b.val : ℝ) ^ 2 ≤ 1.1 * P.bound) (hc : c.isFinite) (hc2 : |(c.val : ℝ)| ≤ 0.1 * P.bound) :
    let D := P.fl (P.fl (P.fl (b.val / 2) * P.fl (b.val / 2)) - c.val)
    ∃ x1 x2 : Flt P.fmt, x1 ≠ Flt.nan ∧ x2 ≠ Flt.nan ∧
      solveQuadraticG s Flt.nan 1 b c e = if |D| ≤ e.val then (1, x1, Flt.nan) else if D < 0 then (0, Flt.nan, Flt.nan) else (2, x1, x2) := by
  intro D
  have hp := fmt_p hP
  have u0 := Ap.u_pos P
  have ok := ok_one hp
  have hu := ok.u
  have hB := big hP
  have heta := Ap.eta_le P
  have u1 : (P.u : ℝ) ≤ 0.001 := by linarith
  have et : (P.eta : ℝ) ≤ 0.001 := by nlinarith
  have one : (1 : Flt P.fmt).isFinite ∧ (1 : Flt P.fmt).val = 1 := ⟨Flt.one_finite, Flt.one_val⟩
  have r2 : P.fl (2 * 1) = 2 := by
    have := P.fl_rep (Flt.rep_val (2 : Flt P.fmt)).1
    rw [(Flt.two_eq P).2] at this
    rw [mul_one]; exact this
  have two := is_mul (P := P) (Flt.two_eq P) one r2 (by
    have := (Flt.rep_val (2 : Flt P.fmt)).2
    rwa [(Flt.two_eq P).2] at this)
  have bs := small_of_sq hB hb2
  have b2 : ((2 * 1 : Flt P.fmt).val : ℝ) = 2 := by rw [two.2]; norm_num
  obtain ⟨pf, pe⟩ := div_err hb two.1 (by rw [two.2]; norm_num) (by
    rw [b2, abs_div, abs_of_pos (by norm_num : (0:ℝ) < 2)]; linarith)
  have pv : (b / (2 * 1)).val = P.fl (b.val / 2) := by
    have h := fin_div_fin hb two.1 (by rw [two.2]; norm_num)
    have pf' := pf
    rw [h] at pf' ⊢
    rw [two.2] at pf' ⊢
    exact Flt.round_val pf'
  rw [b2, abs_div, abs_of_pos (by norm_num : (0:ℝ) < 2)] at pe
  have qv : (c / 1).isFinite ∧ (c / 1).val = c.val :=
    is_div ⟨hc, rfl⟩ one (by norm_num) (by rw [div_one]; exact P.fl_rep (Flt.rep_val c).1) (Flt.rep_val c).2
  have pb : |((b / (2 * 1)).val : ℝ)| ≤ 0.501 * |(b.val : ℝ)| + 0.001 := by
    have h1 := abs_add_le (((b / (2 * 1)).val : ℝ) - b.val / 2) (b.val / 2)
    rw [sub_add_cancel, abs_div, abs_of_pos (by norm_num : (0:ℝ) < 2)] at h1
    have := mul_le_mul_of_nonneg_right u1 (by positivity : 0 ≤ |(b.val : ℝ)| / 2)
    have := abs_nonneg (b.val : ℝ)
    linarith
  have pp : ((b / (2 * 1)).val : ℝ) * (b / (2 * 1)).val ≤ 0.3 * P.bound := by
    have h1 := abs_mul_abs_self ((b / (2 * 1)).val : ℝ)
    have h2 := mul_self_le_mul_self (abs_nonneg _) pb
    have h3 : |(b.val : ℝ)| ^ 2 ≤ 1.1 * P.bound := by rwa [sq_abs]
    nlinarith
  have pp0 := mul_self_nonneg ((b / (2 * 1)).val : ℝ)
  obtain ⟨ppf, ppe⟩ := mul_err pf pf (by rw [abs_of_nonneg pp0]; linarith)
  rw [abs_of_nonneg pp0] at ppe
  have ppe' := abs_le.1 ppe
  have ppu := mul_le_mul u1 pp pp0 (by norm_num)
  have hc3 := abs_le.1 hc2
  have ppv := Flt.mul_val ppf
  rw [pv] at ppv
  have qv2 : ((c / 1).val : ℝ) = c.val := by rw [qv.2]
  have df := (sub_err ppf qv.1 (by
    rw [qv2]
    have : |((b / (2 * 1) * (b / (2 * 1))).val : ℝ) - c.val| ≤ 0.45 * P.bound := abs_le.2 ⟨by linarith, by linarith⟩
    linarith)).1
  have dv := Flt.sub_val df
  rw [ppv, qv.2] at dv
  change _ = D at dv
  have key : solveQuadraticG s Flt.nan 1 b c e = if |D| ≤ e.val then (1, -(b / (2 * 1)), Flt.nan) else if D < 0 then (0, Flt.nan, Flt.nan) else
      (2, s (b / (2 * 1) * (b / (2 * 1)) - c / 1) - b / (2 * 1), -s (b / (2 * 1) * (b / (2 * 1)) - c / 1) - b / (2 * 1)) := by
    unfold solveQuadraticG
    simp only
    rw [isZero_flt df he he0, lt_zero_flt df, dv]
    simp only [decide_eq_true_eq]
  rw [key]
  have nz := fin_ne_nan (P := P) Flt.zero_finite
  by_cases c1 : |D| ≤ e.val
  · exact ⟨_, 0, fin_ne_nan (Flt.neg_finite.2 pf), nz, by rw [if_pos c1, if_pos c1]⟩
  · by_cases c2 : D < 0
    · exact ⟨0, 0, nz, nz, by simp only [c1, c2, if_false, if_true]⟩
    · have sf := (root hP hs df (by rw [dv]; exact not_lt.1 c2)).1
      exact ⟨_, _, sub_ne_nan (fin_ne_nan sf) pf, sub_ne_nan (fin_ne_nan (Flt.neg_finite.2 sf)) pf, by simp only [c1, c2, if_false]⟩

theorem root_or (hP : P = binary32 ∨ P = binary64) {s : Flt P.fmt → Flt P.fmt} (hs : FaithfulSqrt P s) {x e u : Flt P.fmt} (hx : x.isFinite)
    (h : sqrtOrFailG s x e = some u) : u.isFinite ∧ 0 ≤ u.val ∧ (u.val : ℝ) ^ 2 ≤ 1.1 * P.bound := by
  have hB := big hP
  unfold sqrtOrFailG at h
  split_ifs at h with c1 c2
  · rw [← Option.some.inj h, Flt.zero_val]
    refine ⟨Flt.zero_finite, le_rfl, ?_⟩
    push_cast
    linarith
  · rw [← Option.some.inj h]
    rw [Flt.lt_val Flt.zero_finite hx, decide_eq_true_eq, Flt.zero_val] at c2
    exact root hP hs hx c2.le

/-- Multiplication by the constant 1/4 does not overflow. -/
theorem quarter_fin {A : Flt P.fmt} (hl : (P.literal (1 / 4)).isFinite ∧ |(P.literal (1 / 4)).val| ≤ 1) (hA : A.isFinite) : (P.literal (1 / 4) * A).isFinite := by
  have r := Flt.rep_val A
  have le : |(P.literal (1 / 4)).val * A.val| ≤ |A.val| := by
    rw [abs_mul]
    exact mul_le_of_le_one_left (abs_nonneg _) hl.2
  have fle : |P.fl ((P.literal (1 / 4)).val * A.val)| ≤ |A.val| := by
    have ra : P.Rep |A.val| := by
      rcases abs_choice A.val with h | h
      · rw [h]; exact r.1
      · rw [h]; exact r.1.neg
    exact abs_le.2 ⟨P.le_fl_of_rep ra.neg (abs_le.1 le).1, P.fl_le_of_rep ra (abs_le.1 le).2⟩
  exact (is_mul (P := P) ⟨hl.1, rfl⟩ ⟨hA, rfl⟩ rfl (lt_of_le_of_lt fle r.2)).1

theorem quarter (hP : P = binary32 ∨ P = binary64) : (P.literal (1 / 4)).isFinite ∧ (P.literal (1 / 4)).val = 1 / 4 := by
  have h1 : binary64.fl (1 / 4) = 1 / 4 := by fl_num (-54) (4503599627370496)
  unfold BinPar.literal
  rw [h1]
  rcases hP with rfl | rfl
  · exact is_round (P := binary32) (by fl_num (-25) (8388608)) (lt_bound32 (by norm_num))
  · exact is_round (P := binary64) h1 (lt_bound64 (by norm_num))

/-- The second quadratic equation has at most as many solutions as the first, so that every reported slot has been written. -/
theorem stored {D1 D2 e : ℚ} {x1 x2 y1 y2 : Flt P.fmt} (h : D2 ≤ D1) (hx1 : x1 ≠ Flt.nan) (hx2 : x2 ≠ Flt.nan) (hy1 : y1 ≠ Flt.nan) (hy2 : y2 ≠ Flt.nan) :
    let S := storeQuadraticsG Flt.nan (if |D1| ≤ e then (1, x1, Flt.nan) else if D1 < 0 then (0, Flt.nan, Flt.nan) else (2, x1, x2))
      (if |D2| ≤ e then (1, y1, Flt.nan) else if D2 < 0 then (0, Flt.nan, Flt.nan) else (2, y1, y2))
    ∀ i : Fin 4, i.val < S.1 → S.2 i ≠ Flt.nan := by
  intro S i
  have e0 : S = storeQuadraticsG Flt.nan (if |D1| ≤ e then (1, x1, Flt.nan) else if D1 < 0 then (0, Flt.nan, Flt.nan) else (2, x1, x2))
      (if |D2| ≤ e then (1, y1, Flt.nan) else if D2 < 0 then (0, Flt.nan, Flt.nan) else (2, y1, y2)) := rfl
  by_cases c1 : |D1| ≤ e
  · obtain ⟨g1, g2⟩ := abs_le.1 c1
    by_cases c2 : |D2| ≤ e
    · rw [if_pos c1, if_pos c2] at e0
      rw [e0]
      fin_cases i <;> simp [storeQuadraticsG, Function.update, hx1, hy1]
    · have c3 : D2 < 0 := by
        by_contra hc
        exact c2 (abs_le.2 ⟨by linarith, by linarith⟩)
      rw [if_pos c1, if_neg c2, if_pos c3] at e0
      rw [e0]
      fin_cases i <;> simp [storeQuadraticsG, Function.update, hx1, hy1]
  · by_cases c4 : D1 < 0
    · have c2 : ¬ |D2| ≤ e := by
        rw [abs_of_neg c4] at c1
        rw [abs_of_neg (by linarith)]
        linarith
      rw [if_neg c1, if_pos c4, if_neg c2, if_pos (by linarith)] at e0
      rw [e0]
      fin_cases i <;> simp [storeQuadraticsG]
    · rw [if_neg c1, if_neg c4] at e0
      rw [e0]
      split_ifs <;> fin_cases i <;> simp [storeQuadraticsG, Function.update, hx1, hx2, hy1, hy2]

end FltQua

/-- Whatever the coefficients: if the two radicands (and with them everything before) did not overflow then no reported solution is NaN.  In particular
the second quadratic equation never has more solutions than the first (rounding is monotone), and so the comparison with the number of solutions of
the first instead of the second, when the solutions of the second are stored, has no effect. -/
theorem C157_numbers (P : BinPar) (hP : P = binary32 ∨ P = binary64) (s cb ac cs : Flt P.fmt → Flt P.fmt) (hs : FaithfulSqrt P s)
    (a b c d e eps : Flt P.fmt) (he : eps.isFinite) (he0 : 0 ≤ eps.val)
    (hf : let A := b / a
      let p := -P.literal (3 / 8) * A * A + c / a
      let q := P.literal (1 / 8) * A * A * A - P.literal (1 / 2) * A * (c / a) + d / a
      let r := -P.literal (3 / 256) * A * A * A * A + P.literal (1 / 16) * A * A * (c / a) - P.literal (1 / 4) * A * (d / a) + e / a
      let z := (solveCubicF P s cb ac cs 1 (-P.literal (1 / 2) * p) (-r) (P.literal (1 / 2) * r * p - P.literal (1 / 8) * q * q) eps).2.1
      isZero r eps = false ∧ (z * z - r).isFinite ∧ (2 * z - p).isFinite) :
    let S := solveQuarticF P s cb ac cs a b c d e eps
    ∀ i : Fin 4, i.val < S.1 → S.2 i ≠ Flt.nan := by
  intro S i hi
  simp only at hf
  obtain ⟨hr, hf1, hf2⟩ := hf
  have hB := big hP
  have e0 : S = (fun R : ℕ × (Fin 4 → Flt P.fmt) => (R.1, fun i : Fin 4 => if i.val < R.1 then R.2 i - P.literal (1 / 4) * (b / a) else R.2 i))
      (solveDepressedQuarticG s cb ac cs P.pi Flt.nan P.literal (-P.literal (3 / 8) * (b / a) * (b / a) + c / a)
      (P.literal (1 / 8) * (b / a) * (b / a) * (b / a) - P.literal (1 / 2) * (b / a) * (c / a) + d / a)
      (-P.literal (3 / 256) * (b / a) * (b / a) * (b / a) * (b / a) + P.literal (1 / 16) * (b / a) * (b / a) * (c / a) - P.literal (1 / 4) * (b / a) * (d / a) + e / a) eps) := rfl
  have hA : (b / a).isFinite := by
    obtain ⟨-, h1⟩ := Flt.sub_finite hf2
    obtain ⟨h2, -⟩ := Flt.add_finite h1
    exact (Flt.mul_finite h2).2
  have lq := quarter hP
  have hsub := quarter_fin ⟨lq.1, by rw [lq.2]; norm_num [abs_of_pos]⟩ hA
  generalize -P.literal (3 / 8) * (b / a) * (b / a) + c / a = p at *
  generalize P.literal (1 / 8) * (b / a) * (b / a) * (b / a) - P.literal (1 / 2) * (b / a) * (c / a) + d / a = q at *
  generalize -P.literal (3 / 256) * (b / a) * (b / a) * (b / a) * (b / a) + P.literal (1 / 16) * (b / a) * (b / a) * (c / a) - P.literal (1 / 4) * (b / a) * (d / a) + e / a = r at *
  generalize P.literal (1 / 4) * (b / a) = sub at *
  simp only at e0
  have key : ∀ i : Fin 4, i.val < (solveDepressedQuarticG s cb ac cs P.pi Flt.nan P.literal p q r eps).1 →
      (solveDepressedQuarticG s cb ac cs P.pi Flt.nan P.literal p q r eps).2 i ≠ Flt.nan := by
    unfold solveDepressedQuarticG
    unfold solveCubicF at hf1 hf2
    simp only
    rw [hr]
    simp only [Bool.false_eq_true, if_false]
    generalize (solveCubicG s cb ac cs P.pi Flt.nan (P.literal (1 / 3)) (P.literal (1 / 2)) (P.literal (2 / 27)) 1 (-P.literal (1 / 2) * p) (-r)
        (P.literal (1 / 2) * r * p - P.literal (1 / 8) * q * q) eps).2.1 = z at *
    have zzf := (Flt.sub_finite hf1).1
    have zf := (Flt.mul_finite zzf).1
    have zs : |(z.val : ℝ)| ≤ 0.01 * P.bound := by
      have e1 := Ap.fl_err_real P (z.val * z.val)
      have e2 := (Flt.rep_val (z * z)).2
      rw [Flt.mul_val zzf] at e2
      have e3 : |(P.fl (z.val * z.val) : ℝ)| < P.bound := by exact_mod_cast e2
      push_cast at e1
      have pu := Ap.u_pos P
      have hu := (ok_one (fmt_p hP)).u
      have heta := Ap.eta_le P
      have z0 := mul_self_nonneg (z.val : ℝ)
      rw [abs_of_nonneg z0] at e1
      have et : (P.eta : ℝ) ≤ 0.001 := by nlinarith
      have uz := mul_le_mul_of_nonneg_right (by linarith : (P.u : ℝ) ≤ 0.001) z0
      obtain ⟨e4, e5⟩ := abs_le.1 e1
      obtain ⟨e6, e7⟩ := abs_lt.1 e3
      refine small_of_sq hB ?_
      rw [sq]
      linarith
    obtain ⟨z1, z2⟩ := abs_le.1 zs
    cases h1 : sqrtOrFailG s (z * z - r) eps with
    | none => intro i hi; exact absurd hi (by simp)
    | some u =>
      cases h2 : sqrtOrFailG s (2 * z - p) eps with
      | none => intro i hi; exact absurd hi (by simp)
      | some v =>
        simp only
        obtain ⟨uf, u0, us⟩ := root_or hP hs hf1 h1
        obtain ⟨vf, v0, vs⟩ := root_or hP hs hf2 h2
        obtain ⟨u1, u2⟩ := abs_le.1 (small_of_sq hB us)
        have d1 : |(z.val : ℝ) - u.val| ≤ 0.02 * P.bound := abs_le.2 ⟨by linarith, by linarith⟩
        have d2 : |(z.val : ℝ) + u.val| ≤ 0.02 * P.bound := abs_le.2 ⟨by linarith, by linarith⟩
        obtain ⟨mf, me⟩ := sub_err zf uf (by linarith)
        obtain ⟨pf, pe⟩ := add_err zf uf (by linarith)
        have pu := Ap.u_pos P
        have hu := (ok_one (fmt_p hP)).u
        have mb : |((z - u).val : ℝ)| ≤ 0.1 * P.bound := by
          have h1 := abs_add_le (((z - u).val : ℝ) - (z.val - u.val)) (z.val - u.val)
          rw [sub_add_cancel] at h1
          have := mul_le_mul_of_nonneg_right (by linarith : (P.u : ℝ) ≤ 1) (abs_nonneg ((z.val : ℝ) - u.val))
          linarith
        have pb : |((z + u).val : ℝ)| ≤ 0.1 * P.bound := by
          have h1 := abs_add_le (((z + u).val : ℝ) - (z.val + u.val)) (z.val + u.val)
          rw [sub_add_cancel] at h1
          have := mul_le_mul_of_nonneg_right (by linarith : (P.u : ℝ) ≤ 1) (abs_nonneg ((z.val : ℝ) + u.val))
          linarith
        have nv : ((-v).val : ℝ) ^ 2 ≤ 1.1 * P.bound := by rw [Flt.neg_val]; push_cast; rw [neg_sq]; exact vs
        have nf : (-v).isFinite := Flt.neg_finite.2 vf
        have le : (z - u).val ≤ (z + u).val := by
          rw [Flt.sub_val mf, Flt.add_val pf]
          exact P.fl_mono (by linarith)
        have sq : P.fl (P.fl ((-v).val / 2) * P.fl ((-v).val / 2)) = P.fl (P.fl (v.val / 2) * P.fl (v.val / 2)) := by
          rw [Flt.neg_val, neg_div, P.fl_neg, neg_mul_neg]
        by_cases hq : Cmp.lt q 0 = true
        · rw [if_pos hq, if_pos hq]
          obtain ⟨x1, x2, hx1, hx2, ex⟩ := quadratic hP hs he he0 nf nv mf mb
          obtain ⟨y1, y2, hy1, hy2, ey⟩ := quadratic hP hs he he0 vf vs pf pb
          rw [ex, ey]
          exact stored (P.fl_mono (by rw [sq]; linarith)) hx1 hx2 hy1 hy2
        · rw [if_neg hq, if_neg hq]
          obtain ⟨x1, x2, hx1, hx2, ex⟩ := quadratic hP hs he he0 vf vs mf mb
          obtain ⟨y1, y2, hy1, hy2, ey⟩ := quadratic hP hs he he0 nf nv pf pb
          rw [ex, ey]
          exact stored (P.fl_mono (by rw [sq]; linarith)) hx1 hx2 hy1 hy2
  rw [e0] at hi ⊢
  simp only at hi ⊢
  rw [if_pos hi]
  exact sub_ne_nan (key i hi) hsub

namespace FltQua

/-- Without cubic and quadratic term the substitutions do nothing. -/
theorem no_cubic {s cb ac cs : Flt P.fmt → Flt P.fmt} {pi d e eps : Flt P.fmt} (hl : ∀ q ∈ [(3 / 8 : ℚ), 1 / 8, 1 / 2, 3 / 256, 1 / 16, 1 / 4], (P.literal q).isFinite)
    (hd : d.isFinite) :
    solveQuarticG s cb ac cs pi Flt.nan P.literal 1 0 0 d e eps = solveDepressedQuarticG s cb ac cs pi Flt.nan P.literal 0 d e eps := by
  unfold solveQuarticG
  have z : (0 : Flt P.fmt).isFinite := Flt.zero_finite
  have m : ∀ x : Flt P.fmt, x.isFinite → x * (0 : Flt P.fmt) = 0 := fun x hx => Flt.mul_zero_fin hx
  have e1 := m _ (Flt.neg_finite.2 (hl (3 / 8) (by simp)))
  have e2 := m _ (hl (1 / 8) (by simp))
  have e3 := m _ (hl (1 / 2) (by simp))
  have e4 := m _ (Flt.neg_finite.2 (hl (3 / 256) (by simp)))
  have e5 := m _ (hl (1 / 16) (by simp))
  have e6 := m _ (hl (1 / 4) (by simp))
  have e7 := m _ z
  have e8 : (0 : Flt P.fmt) * d = 0 := Flt.zero_mul_fin hd
  simp only [Flt.div_one', e1, e2, e3, e4, e5, e6, e7, e8, Flt.zero_add', Flt.sub_zero', ite_self]

theorem op32 : (binary32.u : ℝ) = 1 / 2 ^ 24 ∧ (binary32.eta : ℝ) ≤ 1 / 10 ^ 8 ∧ (100 : ℝ) < binary32.bound := by
  refine ⟨by norm_num [BinPar.u, binary32], ?_, ?_⟩
  · have h := Ap.eta_le binary32
    have : ((binary32.u : ℚ) : ℝ) = 1 / 2 ^ 24 := by norm_num [BinPar.u, binary32]
    rw [this] at h
    refine h.trans (by norm_num)
  · have := lt_bound32 (q := 100) (by norm_num)
    rw [abs_of_pos (by norm_num)] at this
    exact_mod_cast this

variable {x y : Flt binary32.fmt}

theorem near_mul (hx : x.isFinite) (hy : y.isFinite) (h : |(x.val : ℝ) * y.val| ≤ 10) :
    (x * y).isFinite ∧ ((x * y).val : ℝ) ≤ x.val * y.val + 1 / 10 ^ 6 ∧ x.val * y.val - 1 / 10 ^ 6 ≤ ((x * y).val : ℝ) := by
  obtain ⟨o1, o2, o3⟩ := op32
  obtain ⟨f, e⟩ := mul_err hx hy (by linarith)
  rw [o1] at e
  obtain ⟨e1, e2⟩ := abs_le.1 e
  exact ⟨f, by linarith, by linarith⟩

theorem near_add (hx : x.isFinite) (hy : y.isFinite) (h : |(x.val : ℝ) + y.val| ≤ 10) :
    (x + y).isFinite ∧ ((x + y).val : ℝ) ≤ x.val + y.val + 1 / 10 ^ 6 ∧ x.val + y.val - 1 / 10 ^ 6 ≤ ((x + y).val : ℝ) := by
  obtain ⟨o1, o2, o3⟩ := op32
  obtain ⟨f, e⟩ := add_err hx hy (by linarith)
  rw [o1] at e
  obtain ⟨e1, e2⟩ := abs_le.1 e
  exact ⟨f, by linarith, by linarith⟩

theorem near_sub (hx : x.isFinite) (hy : y.isFinite) (h : |(x.val : ℝ) - y.val| ≤ 10) :
    (x - y).isFinite ∧ ((x - y).val : ℝ) ≤ x.val - y.val + 1 / 10 ^ 6 ∧ x.val - y.val - 1 / 10 ^ 6 ≤ ((x - y).val : ℝ) := by
  obtain ⟨o1, o2, o3⟩ := op32
  obtain ⟨f, e⟩ := sub_err hx hy (by linarith)
  rw [o1] at e
  obtain ⟨e1, e2⟩ := abs_le.1 e
  exact ⟨f, by linarith, by linarith⟩

theorem near_sqrt {s : Flt binary32.fmt → Flt binary32.fmt} (hs : FaithfulSqrt binary32 s) (hx : x.isFinite) {a b : ℝ} (ha : 0 ≤ a) (hb : 0 ≤ b)
    (h1 : a ^ 2 ≤ 0.999999 * (x.val : ℝ)) (h2 : 1.000001 * (x.val : ℝ) ≤ b ^ 2) : (s x).isFinite ∧ a ≤ ((s x).val : ℝ) ∧ ((s x).val : ℝ) ≤ b := by
  obtain ⟨o1, o2, o3⟩ := op32
  have x0' : (0 : ℝ) ≤ x.val := by nlinarith
  have x0 : 0 ≤ x.val := by exact_mod_cast x0'
  obtain ⟨k1, k2⟩ := Flt.eq_fin hx
  obtain ⟨r, hr, er, hf⟩ := hs.fin x.val k1 x0
  have er' : s x = Flt.fin r hr := by rw [← er, ← k2]
  have gf : (Flt.fin r hr : Flt binary32.fmt).isFinite ∧ (Flt.fin r hr : Flt binary32.fmt).val = r := ⟨trivial, rfl⟩
  obtain ⟨g1, g2⟩ := hf.sq k1 x0
  have g1' : (r : ℝ) ^ 2 ≤ x.val * (1 + 2 * binary32.u) ^ 2 := by exact_mod_cast g1
  have g2' : (x.val : ℝ) ≤ r ^ 2 * (1 + 2 * binary32.u) ^ 2 := by exact_mod_cast g2
  have r0 : (0 : ℝ) ≤ r := by exact_mod_cast hf.1
  rw [o1] at g1' g2'
  rw [er', gf.2]
  have r2 := sq_nonneg (r : ℝ)
  refine ⟨gf.1, ?_, ?_⟩
  · refine abs_le_of_sq_le_sq' ?_ r0 |>.2
    norm_num at g2' ⊢
    linarith
  · refine abs_le_of_sq_le_sq' ?_ hb |>.2
    norm_num at g1' ⊢
    linarith

theorem near_half (hx : x.isFinite) (h : |(x.val : ℝ)| ≤ 10) :
    (x / (2 * 1)).isFinite ∧ ((x / (2 * 1)).val : ℝ) ≤ x.val / 2 + 1 / 10 ^ 6 ∧ x.val / 2 - 1 / 10 ^ 6 ≤ ((x / (2 * 1)).val : ℝ) := by
  obtain ⟨o1, o2, o3⟩ := op32
  have one : (1 : Flt binary32.fmt).isFinite ∧ (1 : Flt binary32.fmt).val = 1 := ⟨Flt.one_finite, Flt.one_val⟩
  have two := is_mul (P := binary32) (c := 2) (Flt.two_eq binary32) one (by fl_num (-22) (8388608)) (lt_bound32 (by norm_num))
  have b2 : ((2 * 1 : Flt binary32.fmt).val : ℝ) = 2 := by rw [two.2]; norm_num
  have a2 : |(x.val : ℝ) / 2| ≤ 5 := by rw [abs_div, abs_of_pos (by norm_num : (0:ℝ) < 2)]; linarith
  obtain ⟨f, e⟩ := div_err hx two.1 (by rw [two.2]; norm_num) (by rw [b2]; linarith)
  rw [o1, b2] at e
  obtain ⟨e1, e2⟩ := abs_le.1 e
  exact ⟨f, by linarith, by linarith⟩

/-- The solution of the resolvent if the linear coefficient is lost in the discriminant. -/
theorem lost_neg (hp : 10 ≤ P.p) {s cb : Flt P.fmt → Flt P.fmt} (hs : FaithfulSqrt P s) (hcb : AccurateCbrt P cb) {D q : Flt P.fmt} (hD : D.isFinite ∧ D.val = 1)
    (hq : q.isFinite ∧ q.val = -1) :
    (cb (s D - q) + -cb (s D + q)).isFinite ∧ |((cb (s D - q) + -cb (s D + q)).val : ℝ) - cbrt 2| ≤ 6 * P.u := by
  have ok := ok_one hp
  have u0 := Ap.u_pos P
  have hu := ok.u
  have hB : (64 : ℝ) * 1 < P.bound := ok.bound
  have heta := Ap.eta_le P
  have et : (P.eta : ℝ) ≤ 0.001 * P.u := by nlinarith
  have r1 : P.fmt.rep 1 := by
    have := Flt.rep_val (1 : Flt P.fmt)
    rwa [Flt.one_val] at this
  have e1 := FltQuad.sqrt_exact hs hD.1 r1 (by norm_num) (by rw [hD.2]; norm_num)
  have gf : (Flt.fin 1 r1 : Flt P.fmt).isFinite := trivial
  have gv : (Flt.fin 1 r1 : Flt P.fmt).isFinite ∧ (Flt.fin 1 r1 : Flt P.fmt).val = 1 := ⟨gf, rfl⟩
  have z : (s D + q).isFinite ∧ (s D + q).val = 0 := by
    rw [e1]
    exact is_add (P := P) gv hq (by norm_num [P.fl_zero]) (by rw [abs_zero]; exact P.bound_pos)
  have t : (s D - q).isFinite ∧ (s D - q).val = 2 := by
    rw [e1]
    refine is_sub (P := P) gv hq ?_ ?_
    · have := (Flt.rep_val (2 : Flt P.fmt)).1
      rw [(Flt.two_eq P).2] at this
      norm_num
      exact P.fl_rep this
    · have := (Flt.rep_val (2 : Flt P.fmt)).2
      rwa [(Flt.two_eq P).2] at this
  have f1 := hcb.fin _ z.1
  have f2 := hcb.fin _ t.1
  have g1 := hcb.err _ z.1
  have g2 := hcb.err _ t.1
  rw [z.2] at g1
  rw [t.2] at g2
  push_cast at g1 g2
  rw [cbrt_zero, abs_zero, mul_zero, zero_add, sub_zero] at g1
  obtain ⟨c1, c2⟩ := cbrt_two
  rw [abs_of_pos (by linarith : 0 < cbrt 2)] at g2
  have uc := mul_le_mul_of_nonneg_left c2 u0.le
  obtain ⟨k1, k2⟩ := abs_le.1 g1
  obtain ⟨k3, k4⟩ := abs_le.1 g2
  have v : ((-cb (s D + q)).val : ℝ) = -((cb (s D + q)).val : ℝ) := by rw [Flt.neg_val]; push_cast; rfl
  have b : |((cb (s D - q)).val : ℝ) + (-cb (s D + q)).val| ≤ 1.3 := by
    rw [v]; exact abs_le.2 ⟨by linarith, by linarith⟩
  obtain ⟨f, e⟩ := add_err f2 (Flt.neg_finite.2 f1) (by linarith)
  have m := mul_le_mul_of_nonneg_left b u0.le
  rw [v] at e m
  obtain ⟨k5, k6⟩ := abs_le.1 e
  exact ⟨f, abs_le.2 ⟨by linarith, by linarith⟩⟩

/-- The real solutions of the equation of the counterexample. -/
theorem real_gt {x : ℝ} (h : x ^ 4 + 4 * x - 3 / 256 = 0) : -1.5885 ≤ x := by
  by_contra hc
  rw [not_le] at hc
  have h1 : 1.5885 ^ 2 ≤ x ^ 2 := by nlinarith
  have h2 : x ^ 2 * 1.5885 ^ 2 ≤ x ^ 4 := by nlinarith
  nlinarith

theorem root_pos (s : Flt binary32.fmt → Flt binary32.fmt) {eps : Flt binary32.fmt} (he : eps.isFinite) (he0 : 0 ≤ eps.val) (he1 : eps.val < 1 / 256)
    {x : Flt binary32.fmt} (hx : x.isFinite) (h : 1 / 256 ≤ (x.val : ℝ)) : sqrtOrFailG s x eps = some (s x) := by
  have h' : (1 / 256 : ℚ) ≤ x.val := by
    have : ((1 / 256 : ℚ) : ℝ) ≤ x.val := by push_cast; exact h
    exact_mod_cast this
  unfold sqrtOrFailG
  rw [isZero_flt hx he he0, if_neg (by rw [decide_eq_true_eq, abs_of_pos (by linarith)]; linarith), Flt.lt_val Flt.zero_finite hx, Flt.zero_val,
    if_pos (by rw [decide_eq_true_eq]; linarith)]

theorem first_quadratic {s : Flt binary32.fmt → Flt binary32.fmt} (hs : FaithfulSqrt binary32 s) {eps v c' : Flt binary32.fmt} (w1 : v.isFinite)
    (w2 : 1.5873 ≤ (v.val : ℝ)) (w3 : (v.val : ℝ) ≤ 1.5875) (A1 : c'.isFinite) (A2 : -0.00482 ≤ (c'.val : ℝ)) (A3 : (c'.val : ℝ) ≤ -0.00448)
    (he : eps.isFinite) (he0 : 0 ≤ eps.val) (he1 : eps.val < 1 / 256) :
    1 < (solveQuadraticG s Flt.nan 1 v c' eps).1 ∧ (solveQuadraticG s Flt.nan 1 v c' eps).1 = 2 ∧
      (solveQuadraticG s Flt.nan 1 v c' eps).2.2.isFinite ∧ ((solveQuadraticG s Flt.nan 1 v c' eps).2.2.val : ℝ) ≤ -1.59 := by
  obtain ⟨h1, h2, h3⟩ := near_half w1 (abs_le.2 ⟨by linarith, by linarith⟩)
  unfold solveQuadraticG
  simp only [Flt.div_one']
  generalize v / (2 * 1) = h at *
  have hh : 0.62987 ≤ (h.val : ℝ) * h.val ∧ (h.val : ℝ) * h.val ≤ 0.63005 := ⟨by nlinarith, by nlinarith⟩
  obtain ⟨n1, n2, n3⟩ := near_mul h1 h1 (abs_le.2 ⟨by linarith, by linarith⟩)
  obtain ⟨n4, n5, n6⟩ := near_sub n1 A1 (abs_le.2 ⟨by linarith, by linarith⟩)
  obtain ⟨r1, r2, r3⟩ := near_sqrt hs n4 (a := 0.7964) (b := 0.797) (by norm_num) (by norm_num) (by linarith) (by linarith)
  have Dp : (1 / 256 : ℚ) ≤ (h * h - c').val := by
    have : ((1 / 256 : ℚ) : ℝ) ≤ (h * h - c').val := by push_cast; linarith
    exact_mod_cast this
  rw [isZero_flt n4 he he0, if_neg (by rw [decide_eq_true_eq, abs_of_pos (by linarith)]; linarith), lt_zero_flt n4,
    if_neg (by rw [decide_eq_true_eq]; linarith)]
  have ns : ((-s (h * h - c')).val : ℝ) = -((s (h * h - c')).val : ℝ) := by rw [Flt.neg_val]; push_cast; rfl
  obtain ⟨t1, t2, t3⟩ := near_sub (Flt.neg_finite.2 r1) h1 (by rw [ns]; exact abs_le.2 ⟨by linarith, by linarith⟩)
  rw [ns] at t2
  exact ⟨by norm_num, rfl, t1, by linarith⟩

theorem second_quadratic (s : Flt binary32.fmt → Flt binary32.fmt) {eps v c' : Flt binary32.fmt} (w1 : v.isFinite)
    (w2 : 1.5873 ≤ (v.val : ℝ)) (w3 : (v.val : ℝ) ≤ 1.5875) (B1 : c'.isFinite) (B2 : 2.5 ≤ (c'.val : ℝ)) (B3 : (c'.val : ℝ) ≤ 2.6)
    (he : eps.isFinite) (he0 : 0 ≤ eps.val) (he1 : eps.val < 1 / 256) : (solveQuadraticG s Flt.nan 1 (-v) c' eps).1 = 0 := by
  have nv : ((-v).val : ℝ) = -(v.val : ℝ) := by rw [Flt.neg_val]; push_cast; rfl
  obtain ⟨k1, k2, k3⟩ := near_half (Flt.neg_finite.2 w1) (by rw [nv, abs_neg]; exact abs_le.2 ⟨by linarith, by linarith⟩)
  rw [nv] at k2 k3
  unfold solveQuadraticG
  simp only [Flt.div_one']
  generalize -v / (2 * 1) = h at *
  have hh : 0 ≤ (h.val : ℝ) * h.val ∧ (h.val : ℝ) * h.val ≤ 0.64 := ⟨mul_self_nonneg _, by nlinarith⟩
  obtain ⟨n1, n2, n3⟩ := near_mul k1 k1 (abs_le.2 ⟨by linarith, by linarith⟩)
  obtain ⟨n4, n5, n6⟩ := near_sub n1 B1 (abs_le.2 ⟨by linarith, by linarith⟩)
  have Dp : (h * h - c').val ≤ (-1 : ℚ) := by
    have : ((h * h - c').val : ℝ) ≤ ((-1 : ℚ) : ℝ) := by push_cast; linarith
    exact_mod_cast this
  rw [isZero_flt n4 he he0, if_neg (by rw [decide_eq_true_eq, abs_of_neg (by linarith)]; linarith), lt_zero_flt n4,
    if_pos (by rw [decide_eq_true_eq]; linarith)]

theorem lits32 : ∀ q ∈ [(3 / 8 : ℚ), 1 / 8, 1 / 2, 3 / 256, 1 / 16, 1 / 4], (binary32.literal q).isFinite ∧ (binary32.literal q).val = q := by
  have lits : ∀ (q : ℚ) (f : binary64.fl q = q) (g : binary32.fl q = q) (b : |q| ≤ 2 ^ 100), (binary32.literal q).isFinite ∧ (binary32.literal q).val = q := by
    intro q f g b
    unfold BinPar.literal
    rw [f]
    exact is_round (P := binary32) g (lt_bound32 b)
  have l38 := lits (3 / 8) (by fl_num (-54) (6755399441055744)) (by fl_num (-25) (12582912)) (by norm_num [abs_of_pos])
  have l18 := lits (1 / 8) (by fl_num (-55) (4503599627370496)) (by fl_num (-26) (8388608)) (by norm_num [abs_of_pos])
  have l12 := lits (1 / 2) (by fl_num (-53) (4503599627370496)) (by fl_num (-24) (8388608)) (by norm_num [abs_of_pos])
  have l256 := lits (3 / 256) (by fl_num (-59) (6755399441055744)) (by fl_num (-30) (12582912)) (by norm_num [abs_of_pos])
  have l16 := lits (1 / 16) (by fl_num (-56) (4503599627370496)) (by fl_num (-27) (8388608)) (by norm_num [abs_of_pos])
  have l14 := lits (1 / 4) (by fl_num (-54) (4503599627370496)) (by fl_num (-25) (8388608)) (by norm_num [abs_of_pos])
  intro q hq
  simp only [List.mem_cons, List.not_mem_nil, or_false] at hq
  rcases hq with rfl | rfl | rfl | rfl | rfl | rfl
  exacts [l38, l18, l12, l256, l16, l14]

/-- The resolvent of the equation of the counterexample. -/
theorem resolvent32 {s cb ac cs : Flt binary32.fmt → Flt binary32.fmt} (hs : FaithfulSqrt binary32 s) (hcb : AccurateCbrt binary32 cb) {c d eps : Flt binary32.fmt}
    (c1 : c.isFinite ∧ c.val = 3 / 256) (d1 : d.isFinite ∧ d.val = 4) (he : eps.isFinite) (he0 : 0 ≤ eps.val) (he1 : eps.val < 1 / 256) :
    let z := (solveCubicG s cb ac cs binary32.pi Flt.nan (binary32.literal (1 / 3)) (binary32.literal (1 / 2)) (binary32.literal (2 / 27)) 1
      (-binary32.literal (1 / 2) * 0) (- -c) (binary32.literal (1 / 2) * -c * 0 - binary32.literal (1 / 8) * d * d) eps).2.1
    z.isFinite ∧ 1.25989 ≤ (z.val : ℝ) ∧ (z.val : ℝ) ≤ 1.26001 := by
  intro z
  have e0 : z = (solveCubicG s cb ac cs binary32.pi Flt.nan (binary32.literal (1 / 3)) (binary32.literal (1 / 2)) (binary32.literal (2 / 27)) 1
      (-binary32.literal (1 / 2) * 0) (- -c) (binary32.literal (1 / 2) * -c * 0 - binary32.literal (1 / 8) * d * d) eps).2.1 := rfl
  have hP : binary32 = binary32 ∨ binary32 = binary64 := Or.inl rfl
  have l12 := lits32 (1 / 2) (by simp)
  have l18 := lits32 (1 / 8) (by simp)
  have nc : (-c).isFinite ∧ (-c).val = -(3 / 256) := ⟨Flt.neg_finite.2 c1.1, by rw [Flt.neg_val, c1.2]⟩
  have nnc : - -c = c := by
    obtain ⟨h1, h2⟩ := Flt.eq_fin c1.1
    exact Flt.ext (Flt.neg_finite.2 nc.1) c1.1 (by rw [Flt.neg_val, Flt.neg_val, neg_neg])
  have hz1 : -binary32.literal (1 / 2) * 0 = 0 := Flt.mul_zero_fin (Flt.neg_finite.2 l12.1)
  have hc' := is_mul (P := binary32) (c := -(3 / 512)) l12 nc (by rw [show (1 / 2 : ℚ) * -(3 / 256) = -(3 / 512) by norm_num, binary32.fl_neg]; congr 1; fl_num (-31) (12582912)) (lt_bound32 (by norm_num))
  have hz2 : binary32.literal (1 / 2) * -c * 0 = 0 := Flt.mul_zero_fin hc'.1
  have g1 := is_mul (P := binary32) (c := 1 / 2) l18 d1 (by fl_num (-24) (8388608)) (lt_bound32 (by norm_num))
  have g2 := is_mul (P := binary32) (c := 2) g1 d1 (by fl_num (-22) (8388608)) (lt_bound32 (by norm_num))
  have g3 := is_sub (P := binary32) (c := -2) (x := 0) ⟨Flt.zero_finite, Flt.zero_val⟩ g2
    (by rw [show (0 : ℚ) - 2 = -2 by norm_num, binary32.fl_neg]; congr 1; fl_num (-22) (8388608)) (lt_bound32 (by norm_num))
  rw [hz1, nnc, hz2] at e0
  generalize 0 - binary32.literal (1 / 8) * d * d = t at *
  have third : (binary32.literal (1 / 3)).isFinite ∧ (binary32.literal (1 / 3)).val = 11184811 / 2 ^ 25 := by
    have h1 : binary64.fl (1 / 3) = 6004799503160661 / 2 ^ 54 := by fl_num (-54) (6004799503160661)
    unfold BinPar.literal
    rw [h1]
    exact is_round (P := binary32) (by fl_num (-25) (11184811)) (lt_bound32 (by norm_num))
  have p1 := is_mul (P := binary32) (c := 1 / 256) third c1 (by fl_num (-31) (8388608)) (lt_bound32 (by norm_num))
  have q1 := is_mul (P := binary32) (c := -1) l12 g3 (by
    rw [show (1 / 2 : ℚ) * -2 = -1 by norm_num, binary32.fl_neg]; congr 1; fl_num (-23) (8388608)) (lt_bound32 (by norm_num))
  rw [no_square third.1 (twt_fin hP) c1.1] at e0
  generalize binary32.literal (1 / 3) * c = p at *
  generalize binary32.literal (1 / 2) * t = q at *
  have qq := is_mul (P := binary32) (c := 1) q1 q1 (by norm_num; fl_num (-23) (8388608)) (lt_bound32 (by norm_num))
  have pp := is_mul (P := binary32) (c := 1 / 2 ^ 16) p1 p1 (by fl_num (-39) (8388608)) (lt_bound32 (by norm_num))
  have p3 := is_mul (P := binary32) (c := 1 / 2 ^ 24) pp p1 (by fl_num (-47) (8388608)) (lt_bound32 (by norm_num))
  have D1 := is_add (P := binary32) (c := 1) qq p3 (by fl_tie (-23) (8388608)) (lt_bound32 (by norm_num))
  obtain ⟨zf, ze⟩ := lost_neg (P := binary32) (by decide) hs hcb D1 q1
  rw [cases_iff he he0 q1.1 D1.1, if_neg (by rw [D1.2, abs_one]; linarith), if_neg (by rw [D1.2]; norm_num)] at e0
  simp only [resubstituteG, zero_lt_one, if_true, Flt.sub_zero'] at e0
  generalize cb (s (q * q + p * p * p) - q) + -cb (s (q * q + p * p * p) + q) = w at *
  have b2 : 1.2599 ≤ cbrt 2 ∧ cbrt 2 ≤ 1.26 := by
    refine ⟨le_of_cube (by have := cbrt_two; linarith) ?_, cbrt_two.2⟩
    rw [cbrt_pow]; norm_num
  rw [op32.1] at ze
  obtain ⟨z1, z2⟩ := abs_le.1 ze
  have z3 : 1.25989 ≤ (w.val : ℝ) := by linarith [b2.1]
  have z4 : (w.val : ℝ) ≤ 1.26001 := by linarith [b2.2]
  rw [e0]
  exact ⟨zf, z3, z4⟩

end FltQua

/-- The digits that the cubic solver loses are lost here, too.  With numbers of type `float` the solution -1.58838 of the well conditioned equation
`x⁴ + 4 x - 3/256 = 0` is computed as about -1.59032: there is no real solution within 1/1000 of the reported one.  For every square root,
every cube root and every tolerance below 1/256. -/
theorem C157_float_fails (s cb ac cs : Flt binary32.fmt → Flt binary32.fmt) (hs : FaithfulSqrt binary32 s) (hcb : AccurateCbrt binary32 cb) :
    ∃ d e : Flt binary32.fmt, d.isFinite ∧ d.val = 4 ∧ e.isFinite ∧ e.val = -(3 / 256) ∧
      ∀ eps : Flt binary32.fmt, eps.isFinite → 0 ≤ eps.val → eps.val < 1 / 256 →
      let S := solveQuarticF binary32 s cb ac cs 1 0 0 d e eps
      S.1 = 2 ∧ (S.2 1).isFinite ∧ ∀ x : ℝ, x ^ 4 + 4 * x - 3 / 256 = 0 → 1 / 1000 ≤ |((S.2 1).val : ℝ) - x| := by
  have hP : binary32 = binary32 ∨ binary32 = binary64 := Or.inl rfl
  have d1 := is_round (P := binary32) (q := 4) (c := 4) (by fl_num (-21) (8388608)) (lt_bound32 (by norm_num))
  have c1 := is_round (P := binary32) (q := 3 / 256) (c := 3 / 256) (by fl_num (-30) (12582912)) (lt_bound32 (by norm_num))
  refine ⟨_, -Flt.round (3 / 256), d1.1, d1.2, Flt.neg_finite.2 c1.1, by rw [Flt.neg_val, c1.2], fun eps he he0 he1 => ?_⟩
  generalize (Flt.round (3 / 256) : Flt binary32.fmt) = c at *
  generalize (Flt.round 4 : Flt binary32.fmt) = d at *
  intro S
  have e0 : S = solveDepressedQuarticG s cb ac cs binary32.pi Flt.nan binary32.literal 0 d (-c) eps := no_cubic (fun q hq => (lits32 q hq).1) d1.1
  have nc : (-c).isFinite ∧ (-c).val = -(3 / 256) := ⟨Flt.neg_finite.2 c1.1, by rw [Flt.neg_val, c1.2]⟩
  unfold solveDepressedQuarticG at e0
  rw [isZero_flt nc.1 he he0, nc.2, if_neg (by
    rw [decide_eq_true_eq, abs_neg, abs_of_pos (by norm_num)]
    linarith)] at e0
  simp only at e0
  obtain ⟨zf, z3, z4⟩ := resolvent32 (ac := ac) (cs := cs) hs hcb c1 d1 he he0 he1
  generalize (solveCubicG s cb ac cs binary32.pi Flt.nan (binary32.literal (1 / 3)) (binary32.literal (1 / 2)) (binary32.literal (2 / 27)) 1
      (-binary32.literal (1 / 2) * 0) (- -c) (binary32.literal (1 / 2) * -c * 0 - binary32.literal (1 / 8) * d * d) eps).2.1 = z at *
  simp only [Flt.sub_zero'] at e0
  have zz : 1.5873 ≤ (z.val : ℝ) * z.val ∧ (z.val : ℝ) * z.val ≤ 1.58763 := ⟨by nlinarith, by nlinarith⟩
  obtain ⟨m1, m2, m3⟩ := near_mul zf zf (abs_le.2 ⟨by linarith, by linarith⟩)
  have ncv : ((-c).val : ℝ) = -(3 / 256) := by rw [nc.2]; norm_num
  obtain ⟨U1, U2, U3⟩ := near_sub m1 nc.1 (by rw [ncv]; exact abs_le.2 ⟨by linarith, by linarith⟩)
  rw [ncv] at U2 U3
  have two := Flt.two_eq binary32
  have v2 : (((2 : Flt binary32.fmt).val : ℚ) : ℝ) = 2 := by rw [two.2]; norm_num
  obtain ⟨V1, V2, V3⟩ := near_mul two.1 zf (by rw [v2]; exact abs_le.2 ⟨by linarith, by linarith⟩)
  rw [v2] at V2 V3
  have ee : (eps.val : ℝ) < 1 / 256 := by
    have : (eps.val : ℝ) < ((1 / 256 : ℚ) : ℝ) := by exact_mod_cast he1
    push_cast at this; exact this
  rw [root_pos s he he0 he1 U1 (by linarith)] at e0
  simp only at e0
  rw [root_pos s he he0 he1 V1 (by linarith)] at e0
  simp only at e0
  rw [if_neg (by rw [lt_zero_flt d1.1, decide_eq_true_eq, d1.2]; norm_num), if_neg (by rw [lt_zero_flt d1.1, decide_eq_true_eq, d1.2]; norm_num)] at e0
  obtain ⟨u1, u2, u3⟩ := near_sqrt hs U1 (a := 1.2645) (b := 1.2647) (by norm_num) (by norm_num) (by linarith) (by linarith)
  obtain ⟨w1, w2, w3⟩ := near_sqrt hs V1 (a := 1.5873) (b := 1.5875) (by norm_num) (by norm_num) (by linarith) (by linarith)
  generalize s (z * z - -c) = u at *
  generalize s (2 * z) = v at *
  obtain ⟨A1, A2, A3⟩ := near_sub zf u1 (abs_le.2 ⟨by linarith, by linarith⟩)
  obtain ⟨B1, B2, B3⟩ := near_add zf u1 (abs_le.2 ⟨by linarith, by linarith⟩)
  have q1 := first_quadratic hs w1 w2 w3 A1 (by linarith) (by linarith) he he0 he1
  have q2 := second_quadratic s w1 w2 w3 B1 (by linarith) (by linarith) he he0 he1
  obtain ⟨q11, q12, q13, q14⟩ := q1
  have s1 : S.1 = 2 := by
    rw [e0]
    show (solveQuadraticG s Flt.nan 1 v (z - u) eps).1 + (solveQuadraticG s Flt.nan 1 (-v) (z + u) eps).1 = 2
    rw [q12, q2]
  have s2 : S.2 1 = (solveQuadraticG s Flt.nan 1 v (z - u) eps).2.2 := by
    rw [e0]
    simp [storeQuadraticsG, q12, Function.update]
  refine ⟨s1, by rw [s2]; exact q13, fun x hx => ?_⟩
  rw [s2]
  have := real_gt hx
  refine le_trans ?_ (neg_le_abs _)
  linarith

namespace FltQua

theorem mul_ne_nan {x y : Flt P.fmt} (hx : x.isFinite) (hy : y.isFinite) : x * y ≠ Flt.nan := by
  rw [Flt.mul_eq hx hy]
  exact (FltQuad.round_sign _).1

theorem add_ne_nan {x y : Flt P.fmt} (hx : x.isFinite) (hy : y.isFinite) : x + y ≠ Flt.nan := by
  rw [Flt.add_eq hx hy]
  exact (FltQuad.round_sign _).1

/-- A number whose square is finite is small. -/
theorem small_of_mul (hP : P = binary32 ∨ P = binary64) {z : Flt P.fmt} (zzf : (z * z).isFinite) : |(z.val : ℝ)| ≤ 0.01 * P.bound := by
  have e1 := Ap.fl_err_real P (z.val * z.val)
  have e2 := (Flt.rep_val (z * z)).2
  rw [Flt.mul_val zzf] at e2
  have e3 : |(P.fl (z.val * z.val) : ℝ)| < P.bound := by exact_mod_cast e2
  push_cast at e1
  have pu := Ap.u_pos P
  have hu := (ok_one (fmt_p hP)).u
  have heta := Ap.eta_le P
  have z0 := mul_self_nonneg (z.val : ℝ)
  rw [abs_of_nonneg z0] at e1
  have et : (P.eta : ℝ) ≤ 0.001 := by nlinarith
  have uz := mul_le_mul_of_nonneg_right (by linarith : (P.u : ℝ) ≤ 0.001) z0
  have hB := big hP
  obtain ⟨e4, e5⟩ := abs_le.1 e1
  obtain ⟨e6, e7⟩ := abs_lt.1 e3
  refine small_of_sq hB ?_
  rw [sq]
  linarith

/-- The reported solutions of a cubic equation without quadratic term are not NaN. -/
theorem cubic_numbers (hP : P = binary32 ∨ P = binary64) {s cb ac sn cs : Flt P.fmt → Flt P.fmt} (hs : FaithfulSqrt P s) (hcb : AccurateCbrt P cb)
    (hac : AccurateAcos P ac) (hT : AccurateTrig P sn cs) {p q e : Flt P.fmt}
    (hD : (P.literal (1 / 2) * q * (P.literal (1 / 2) * q) + P.literal (1 / 3) * p * (P.literal (1 / 3) * p) * (P.literal (1 / 3) * p)).isFinite) :
    let S := solveCubicF P s cb ac cs 1 0 p q e
    S.2.1 ≠ Flt.nan ∧ (1 < S.1 → S.2.2.1 ≠ Flt.nan) ∧ (2 < S.1 → S.2.2.2 ≠ Flt.nan) := by
  intro S
  have th := third_rl hP
  have pf : p.isFinite := by
    obtain ⟨-, h1⟩ := Flt.add_finite hD
    exact (Flt.mul_finite (Flt.mul_finite h1).2).2
  have e0 : S = _ := no_square th.1 (twt_fin hP) pf
  by_cases h3 : S.1 = 3
  · have k := C156_three_numbers P hP s cb ac sn cs hs hac hT 1 0 p q e (by
      have m : ∀ x : Flt P.fmt, x.isFinite → x * (0 : Flt P.fmt) = 0 := fun x hx => Flt.mul_zero_fin hx
      have e1 := m _ (Flt.neg_finite.2 th.1)
      have e2 := m _ th.1
      have e3 := m _ (twt_fin hP)
      have e4 := m _ (Flt.zero_finite (P := P))
      have e5 : (0 : Flt P.fmt) * p = 0 := Flt.zero_mul_fin pf
      simp only [Flt.div_one', e1, e2, e3, e4, e5, Flt.sub_zero', Flt.zero_add']
      exact hD) h3
    exact ⟨k.1, fun _ => k.2.1, fun _ => k.2.2⟩
  · generalize P.literal (1 / 3) * p = p' at *
    generalize P.literal (1 / 2) * q = q' at *
    obtain ⟨qqf, -⟩ := Flt.add_finite hD
    have qf := (Flt.mul_finite qqf).1
    have two := Flt.two_eq P
    unfold solveDepressedG at e0
    simp only at e0
    split_ifs at e0 with c1 c2 c3
    · rw [e0]
      exact ⟨sub_ne_nan (fin_ne_nan Flt.zero_finite) Flt.zero_finite, fun h => absurd h (by simp [resubstituteG]), fun h => absurd h (by simp [resubstituteG])⟩
    · have f := hcb.fin _ (Flt.neg_finite.2 qf)
      rw [e0]
      exact ⟨sub_ne_nan (mul_ne_nan f two.1) Flt.zero_finite, fun _ => sub_ne_nan (fin_ne_nan (Flt.neg_finite.2 f)) Flt.zero_finite,
        fun h => absurd h (by simp [resubstituteG])⟩
    · exact absurd (by rw [e0]; rfl) h3
    · have d0 : 0 ≤ (q' * q' + p' * p' * p').val := by
        rw [lt_zero_flt hD, decide_eq_true_eq, not_lt] at c3
        exact c3
      obtain ⟨sf, s0, s1⟩ := root hP hs hD d0
      have hB := big hP
      obtain ⟨a1, a2⟩ := abs_le.1 (small_of_sq hB s1)
      obtain ⟨b1, b2⟩ := abs_le.1 (small_of_mul hP qqf)
      have f1 := (sub_err sf qf (by
        have : |((s (q' * q' + p' * p' * p')).val : ℝ) - q'.val| ≤ 0.02 * P.bound := abs_le.2 ⟨by linarith, by linarith⟩
        linarith)).1
      have f2 := (add_err sf qf (by
        have : |((s (q' * q' + p' * p' * p')).val : ℝ) + q'.val| ≤ 0.02 * P.bound := abs_le.2 ⟨by linarith, by linarith⟩
        linarith)).1
      rw [e0]
      exact ⟨sub_ne_nan (add_ne_nan (hcb.fin _ f1) (Flt.neg_finite.2 (hcb.fin _ f2))) Flt.zero_finite, fun h => absurd h (by simp [resubstituteG]),
        fun h => absurd h (by simp [resubstituteG])⟩

end FltQua

/-- The same if the absolute term vanishes up to the tolerance and a cubic equation is solved instead: if its discriminant did not overflow then no
reported solution is NaN. -/
theorem C157_numbers_zero (P : BinPar) (hP : P = binary32 ∨ P = binary64) (s cb ac sn cs : Flt P.fmt → Flt P.fmt) (hs : FaithfulSqrt P s)
    (hcb : AccurateCbrt P cb) (hac : AccurateAcos P ac) (hT : AccurateTrig P sn cs) (a b c d e eps : Flt P.fmt)
    (hf : let A := b / a
      let p := -P.literal (3 / 8) * A * A + c / a
      let q := P.literal (1 / 8) * A * A * A - P.literal (1 / 2) * A * (c / a) + d / a
      let r := -P.literal (3 / 256) * A * A * A * A + P.literal (1 / 16) * A * A * (c / a) - P.literal (1 / 4) * A * (d / a) + e / a
      let p' := P.literal (1 / 3) * p
      let q' := P.literal (1 / 2) * q
      isZero r eps = true ∧ (q' * q' + p' * p' * p').isFinite) :
    let S := solveQuarticF P s cb ac cs a b c d e eps
    ∀ i : Fin 4, i.val < S.1 → S.2 i ≠ Flt.nan := by
  intro S i hi
  simp only at hf
  obtain ⟨hr, hD⟩ := hf
  have e0 : S = (fun R : ℕ × (Fin 4 → Flt P.fmt) => (R.1, fun i : Fin 4 => if i.val < R.1 then R.2 i - P.literal (1 / 4) * (b / a) else R.2 i))
      (solveDepressedQuarticG s cb ac cs P.pi Flt.nan P.literal (-P.literal (3 / 8) * (b / a) * (b / a) + c / a)
      (P.literal (1 / 8) * (b / a) * (b / a) * (b / a) - P.literal (1 / 2) * (b / a) * (c / a) + d / a)
      (-P.literal (3 / 256) * (b / a) * (b / a) * (b / a) * (b / a) + P.literal (1 / 16) * (b / a) * (b / a) * (c / a) - P.literal (1 / 4) * (b / a) * (d / a) + e / a) eps) := rfl
  have hA : (b / a).isFinite := by
    obtain ⟨-, h1⟩ := Flt.add_finite hD
    obtain ⟨h2, -⟩ := Flt.add_finite (Flt.mul_finite (Flt.mul_finite h1).2).2
    exact (Flt.mul_finite h2).2
  have lq := quarter hP
  have hsub := quarter_fin ⟨lq.1, by rw [lq.2]; norm_num [abs_of_pos]⟩ hA
  generalize -P.literal (3 / 8) * (b / a) * (b / a) + c / a = p at *
  generalize P.literal (1 / 8) * (b / a) * (b / a) * (b / a) - P.literal (1 / 2) * (b / a) * (c / a) + d / a = q at *
  generalize -P.literal (3 / 256) * (b / a) * (b / a) * (b / a) * (b / a) + P.literal (1 / 16) * (b / a) * (b / a) * (c / a) - P.literal (1 / 4) * (b / a) * (d / a) + e / a = r at *
  generalize P.literal (1 / 4) * (b / a) = sub at *
  simp only at e0
  have key : ∀ i : Fin 4, i.val < (solveDepressedQuarticG s cb ac cs P.pi Flt.nan P.literal p q r eps).1 →
      (solveDepressedQuarticG s cb ac cs P.pi Flt.nan P.literal p q r eps).2 i ≠ Flt.nan := by
    unfold solveDepressedQuarticG
    simp only
    rw [hr]
    simp only [if_true]
    obtain ⟨k1, k2, k3⟩ := cubic_numbers hP hs hcb hac hT (e := eps) hD
    unfold solveCubicF at k1 k2 k3
    have sh := cubic_shape s cb ac cs P.pi Flt.nan (P.literal (1 / 3)) (P.literal (1 / 2)) (P.literal (2 / 27)) 1 0 p q eps
    simp only at sh
    generalize solveCubicG s cb ac cs P.pi Flt.nan (P.literal (1 / 3)) (P.literal (1 / 2)) (P.literal (2 / 27)) 1 0 p q eps = R at *
    have z0 := fin_ne_nan (P := P) Flt.zero_finite
    intro i hi
    split_ifs with h
    · exact z0
    · have lt : i.val < R.1 := by omega
      fin_cases i
      · exact k1
      · exact k2 lt
      · exact k3 lt
      · exfalso
        rcases sh with ⟨x, h⟩ | ⟨x, y, h⟩ | ⟨x, y, z, h⟩ <;> rw [h] at lt <;> simp at lt
  rw [e0] at hi ⊢
  simp only at hi ⊢
  rw [if_pos hi]
  exact sub_ne_nan (key i hi) hsub

namespace FltQua

/-- Without cubic and quadratic term, the substituted coefficients. -/
theorem coefficients32 {d e : Flt binary32.fmt} (hd : d.isFinite) :
    -binary32.literal (3 / 8) * (0 / 1) * (0 / 1) + 0 / 1 = 0 ∧
    binary32.literal (1 / 8) * (0 / 1) * (0 / 1) * (0 / 1) - binary32.literal (1 / 2) * (0 / 1) * (0 / 1) + d / 1 = d ∧
    -binary32.literal (3 / 256) * (0 / 1) * (0 / 1) * (0 / 1) * (0 / 1) + binary32.literal (1 / 16) * (0 / 1) * (0 / 1) * (0 / 1) -
      binary32.literal (1 / 4) * (0 / 1) * (d / 1) + e / 1 = e := by
  have m : ∀ x : Flt binary32.fmt, x.isFinite → x * (0 : Flt binary32.fmt) = 0 := fun x hx => Flt.mul_zero_fin hx
  have e1 := m _ (Flt.neg_finite.2 (lits32 (3 / 8) (by simp)).1)
  have e2 := m _ (lits32 (1 / 8) (by simp)).1
  have e3 := m _ (lits32 (1 / 2) (by simp)).1
  have e4 := m _ (Flt.neg_finite.2 (lits32 (3 / 256) (by simp)).1)
  have e5 := m _ (lits32 (1 / 16) (by simp)).1
  have e6 := m _ (lits32 (1 / 4) (by simp)).1
  have e7 := m _ (Flt.zero_finite (P := binary32))
  have e8 : (0 : Flt binary32.fmt) * d = 0 := Flt.zero_mul_fin hd
  simp only [Flt.div_one', e1, e2, e3, e4, e5, e6, e7, e8, Flt.zero_add', Flt.sub_zero', true_and]

end FltQua

/-- The hypotheses of `C157_float_fails` can be met. -/
example : ∃ s cb : Flt binary32.fmt → Flt binary32.fmt, FaithfulSqrt binary32 s ∧ AccurateCbrt binary32 cb := by
  obtain ⟨s, hs⟩ := exists_correctSqrt binary32
  obtain ⟨cb, hcb⟩ := exists_cbrt (P := binary32) (by decide)
  exact ⟨s, cb, hs.faithful, hcb⟩

/-- Those of `C157_numbers` by the equation `x⁴ + 4 x - 3/256 = 0`, with the tolerance zero: two numbers are reported. -/
example : ∃ (s cb ac cs : Flt binary32.fmt → Flt binary32.fmt) (d e : Flt binary32.fmt), d.val = 4 ∧ e.val = -(3 / 256) ∧
    let S := solveQuarticF binary32 s cb ac cs 1 0 0 d e 0
    S.1 = 2 ∧ S.2 0 ≠ Flt.nan ∧ S.2 1 ≠ Flt.nan := by
  obtain ⟨s, hs⟩ := exists_correctSqrt binary32
  obtain ⟨cb, hcb⟩ := exists_cbrt (P := binary32) (by decide)
  have z := Flt.zero_finite (P := binary32)
  have v := Flt.zero_val (P := binary32)
  obtain ⟨d, e, h1, h2, h3, h4, h5⟩ := C157_float_fails s cb id id hs.faithful hcb
  have k := h5 0 z (by rw [v]) (by rw [v]; norm_num)
  refine ⟨s, cb, id, id, d, e, h2, h4, k.1, ?_⟩
  obtain ⟨c1, c2, c3⟩ := coefficients32 (d := d) (e := e) h1
  have ne : (-e).isFinite ∧ (-e).val = 3 / 256 := ⟨Flt.neg_finite.2 h3, by rw [Flt.neg_val, h4]; norm_num⟩
  have nn : - -e = e := Flt.ext (Flt.neg_finite.2 ne.1) h3 (by rw [Flt.neg_val, Flt.neg_val, neg_neg])
  obtain ⟨z1, z2, z3⟩ := resolvent32 (ac := id) (cs := id) hs.faithful hcb ne ⟨h1, h2⟩ z (by rw [v]) (by rw [v]; norm_num)
  rw [nn] at z1 z2 z3
  have := C157_numbers binary32 (Or.inl rfl) s cb id id hs.faithful 1 0 0 d e 0 z (by rw [v]) (by
    simp only
    rw [c1, c2, c3]
    unfold solveCubicF
    generalize (solveCubicG s cb id id binary32.pi Flt.nan (binary32.literal (1 / 3)) (binary32.literal (1 / 2)) (binary32.literal (2 / 27)) 1
      (-binary32.literal (1 / 2) * 0) (-e) (binary32.literal (1 / 2) * e * 0 - binary32.literal (1 / 8) * d * d) 0).2.1 = w at *
    have ev : (e.val : ℝ) = -(3 / 256) := by rw [h4]; norm_num
    obtain ⟨m1, m2, m3⟩ := near_mul z1 z1 (abs_le.2 ⟨by nlinarith, by nlinarith⟩)
    have v2 : (((2 : Flt binary32.fmt).val : ℚ) : ℝ) = 2 := by rw [(Flt.two_eq binary32).2]; norm_num
    obtain ⟨n1, n2, n3⟩ := near_mul (Flt.two_eq binary32).1 z1 (by rw [v2]; exact abs_le.2 ⟨by linarith, by linarith⟩)
    refine ⟨?_, (near_sub m1 h3 (by rw [ev]; exact abs_le.2 ⟨by nlinarith, by nlinarith⟩)).1, by rw [Flt.sub_zero']; exact n1⟩
    rw [isZero_flt h3 z (by rw [v]), v, h4]
    norm_num)
  exact ⟨this 0 (by rw [k.1]; norm_num), this 1 (by rw [k.1]; norm_num)⟩

/-- Those of `C157_numbers_zero` by `x⁴ + x = 0`. -/
example : ∃ s cb ac cs : Flt binary32.fmt → Flt binary32.fmt, let S := solveQuarticF binary32 s cb ac cs 1 0 0 1 0 0
    ∀ i : Fin 4, i.val < S.1 → S.2 i ≠ Flt.nan := by
  obtain ⟨s, hs⟩ := exists_correctSqrt binary32
  obtain ⟨cb, hcb⟩ := exists_cbrt (P := binary32) (by decide)
  obtain ⟨ac, hac⟩ := exists_acos (P := binary32) (by decide)
  obtain ⟨sn, cs, hT, -⟩ := exists_accurate (P := binary32) (by decide)
  have z := Flt.zero_finite (P := binary32)
  refine ⟨s, cb, ac, cs, C157_numbers_zero binary32 (Or.inl rfl) s cb ac sn cs hs.faithful hcb hac hT 1 0 0 1 0 0 ?_⟩
  obtain ⟨c1, c2, c3⟩ := coefficients32 (d := 1) (e := 0) Flt.one_finite
  simp only
  rw [c1, c2, c3]
  have m : ∀ x : Flt binary32.fmt, x.isFinite → x * (0 : Flt binary32.fmt) = 0 := fun x hx => Flt.mul_zero_fin hx
  have e1 := is_mul (P := binary32) (c := 1 / 2) (lits32 (1 / 2) (by simp)) ⟨Flt.one_finite, Flt.one_val⟩ (by fl_num (-24) (8388608)) (lt_bound32 (by norm_num))
  have e4 := is_mul (P := binary32) (c := 1 / 4) e1 e1 (by fl_num (-25) (8388608)) (lt_bound32 (by norm_num))
  have e2 := m _ (third_rl (P := binary32) (Or.inl rfl)).1
  have e3 := m _ z
  rw [e2, e3, e3]
  refine ⟨?_, (is_add (P := binary32) (c := 1 / 4) e4 ⟨z, Flt.zero_val⟩ (by rw [add_zero]; fl_num (-25) (8388608)) (lt_bound32 (by norm_num))).1⟩
  rw [isZero_flt z z le_rfl, Flt.zero_val]
  simp

end vm
