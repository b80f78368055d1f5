import Verif.Lemmas.FltAp
import Verif.Props.FltProject
import Verif.Props.FltRayPlane
import Verif.Props.Sort
import Verif.Props.FltDet
import Verif.Props.FltPlane
import Verif.Lemmas.TextNum
import Verif.Lemmas.FltConst
import Verif.Lemmas.FltPolygon

/-!
# C140: missing coordinates, projected vectors and aligned planes in IEEE arithmetic
-/

set_option linter.unusedSectionVars false
set_option linter.unusedSimpArgs false

namespace vm

open BinPar

variable {P : BinPar} {S : ℕ}

/-! ### The loop of `at` -/

theorem at_loop_all {T : Type*} [Add T] [Mul T] (m : ℕ) (n : Fin m → T) (pt : ℕ → T) (t : T) (j : ℕ) :
    Fin.foldl m (fun (st : T × ℕ) i => (st.1 + n i * pt st.2, st.2 + 1)) (t, j) =
      (Fin.foldl m (fun s i => s + n i * pt (j + i.val)) t, j + m) := by
  induction m generalizing t j with
  | zero => simp [Fin.foldl_zero]
  | succ m ih =>
    rw [Fin.foldl_succ, Fin.foldl_succ]
    simp only
    rw [ih (fun i => n i.succ)]
    refine Prod.ext ?_ (by simp only; omega)
    simp only [Fin.val_zero, add_zero, Fin.val_succ]
    congr 1
    funext s i
    rw [show j + 1 + i.val = j + (i.val + 1) by omega]

theorem at_loop_skip {T : Type*} [Add T] [Mul T] (S : ℕ) (a : Fin (S + 1)) (n : Fin (S + 1) → T) (pt : ℕ → T) (t : T) (j : ℕ) :
    Fin.foldl (S + 1) (fun (st : T × ℕ) i => if i.val ≠ a.val then (st.1 + n i * pt st.2, st.2 + 1) else st) (t, j) =
      (Fin.foldl S (fun s i => s + n (a.succAbove i) * pt (j + i.val)) t, j + S) := by
  induction S generalizing t j with
  | zero =>
    rw [Fin.foldl_succ, Fin.foldl_zero, Fin.foldl_zero, Fin.fin_one_eq_zero a]
    simp
  | succ S ih =>
    rw [Fin.foldl_succ]
    refine Fin.cases ?_ (fun a => ?_) a
    · simp only [Fin.val_zero, ne_eq, not_true_eq_false, if_false, Fin.val_succ, Nat.add_eq_zero_iff, one_ne_zero, and_false,
        not_false_eq_true, if_true]
      rw [at_loop_all (S + 1) (fun i => n i.succ)]
      simp only [Fin.succAbove_zero]
    · have h0 : ((0 : Fin (S + 2)).val ≠ a.succ.val) := by simp
      simp only [Fin.val_succ, ne_eq, Nat.add_right_cancel_iff]
      rw [if_pos (by simp)]
      have := ih a (fun i => n i.succ) (t + n 0 * pt j) (j + 1)
      simp only [ne_eq] at this
      rw [this, Fin.foldl_succ (n := S)]
      refine Prod.ext ?_ (by simp only; omega)
      simp only [Fin.succ_succAbove_zero, Fin.succ_succAbove_succ, Fin.val_zero, add_zero, Fin.val_succ]
      congr 1
      funext s i
      rw [show j + 1 + i.val = j + (i.val + 1) by omega]

/-- The value computed by `at`, for any scalar type. -/
theorem at_of_ne {T : Type*} [Cmp T] [Zero T] [Add T] [Sub T] [Mul T] [Div T] (junk : ℕ → T) (p : Plane T (S + 1)) (x : Vec T S)
    (axis : Fin (S + 1)) (h : Cmp.eq (p.normal axis) 0 = false) :
    p.at_ junk x axis = (p.distance - dot (fun i => p.normal (axis.succAbove i)) x) / p.normal axis := by
  unfold Plane.at_
  rw [if_neg (by rw [h]; simp), at_loop_skip S axis p.normal (fun k => if h : k < S then x ⟨k, h⟩ else junk k)]
  simp only [zero_add, Fin.is_lt, dite_true, Fin.eta]
  rfl

theorem at_of_eq {T : Type*} [Cmp T] [Zero T] [Add T] [Sub T] [Mul T] [Div T] (junk : ℕ → T) (p : Plane T (S + 1)) (x : Vec T S)
    (axis : Fin (S + 1)) (h : Cmp.eq (p.normal axis) 0 = true) : p.at_ junk x axis = 0 := by
  unfold Plane.at_
  rw [if_pos h]

/-- The point with the missing coordinate satisfies the equation of the plane up to a relative rounding error of the terms of the equation, if
the coordinate is finite.  With a normal of which the component is zero the result is 0. -/
theorem C140_at (P : BinPar) {S : ℕ} (junk : ℕ → Flt P.fmt) (p : Plane (Flt P.fmt) (S + 1)) (x : Vec (Flt P.fmt) S) (axis : Fin (S + 1))
    (hn : (p.normal axis).isFinite) :
    ((p.normal axis).val ≠ 0 → (p.at_ junk x axis).isFinite →
      |(p.normal axis).val * (p.at_ junk x axis).val + ∑ i, (p.normal (axis.succAbove i)).val * (x i).val - p.distance.val| ≤
        ((1 + P.u) ^ (S + 2) - 1) * (|p.distance.val| + ∑ i, |(p.normal (axis.succAbove i)).val * (x i).val|) +
          ((S + 1) * (1 + P.u) ^ (S + 2) + |(p.normal axis).val|) * P.eta) ∧
    ((p.normal axis).val = 0 → p.at_ junk x axis = 0) := by
  have hz := eq_zero_val hn
  constructor
  · intro h0
    rw [at_of_ne _ _ _ _ (by rw [hz, decide_eq_false h0])]
    intro hf
    set t := (p.distance - dot (fun i => p.normal (axis.succAbove i)) x) / p.normal axis with ht
    have hu := P.u_pos
    have he := P.eta_pos
    have h1 := div_finite_left hn hf
    obtain ⟨h2, h3⟩ := Flt.sub_finite h1
    have hd := dot_err _ _ h3
    set X := exactDot (fun i => p.normal (axis.succAbove i)) x with hX
    set A := absDot (fun i => p.normal (axis.succAbove i)) x with hA
    set E := dotErr P S A with hE
    set n := (p.normal axis).val
    set d := p.distance.val
    have hXA : |X| ≤ A := Finset.abs_sum_le_sum_abs _ _
    have hA0 : 0 ≤ A := (abs_nonneg _).trans hXA
    have hE0 : 0 ≤ E := (abs_nonneg _).trans hd
    have hNA : |d - X| ≤ |d| + A := (abs_sub _ _).trans (by linarith)
    have e1 := Flt.sub_val h1
    have g1 := P.fl_err_u (d - (dot (fun i => p.normal (axis.succAbove i)) x).val)
    rw [← e1] at g1
    have g2 : |d - (dot (fun i => p.normal (axis.succAbove i)) x).val| ≤ |d| + A + E := by
      have := abs_sub_le d X (dot (fun i => p.normal (axis.succAbove i)) x).val
      rw [abs_sub_comm X] at this
      linarith
    have hN : |(p.distance - dot (fun i => p.normal (axis.succAbove i)) x).val - (d - X)| ≤ P.u * (|d| + A + E) + P.eta + E := by
      have k1 := abs_sub_le (p.distance - dot (fun i => p.normal (axis.succAbove i)) x).val
        (d - (dot (fun i => p.normal (axis.succAbove i)) x).val) (d - X)
      have k2 : |d - (dot (fun i => p.normal (axis.succAbove i)) x).val - (d - X)| ≤ E := by
        rw [show d - (dot (fun i => p.normal (axis.succAbove i)) x).val - (d - X) =
          -((dot (fun i => p.normal (axis.succAbove i)) x).val - X) by ring, abs_neg]
        exact hd
      have k3 := mul_le_mul_of_nonneg_left g2 hu.le
      linarith
    have e2 := fin_div_fin h1 hn h0
    have htv : t.val = P.fl ((p.distance - dot (fun i => p.normal (axis.succAbove i)) x).val / n) := by
      rw [ht, e2] at hf ⊢
      rw [Flt.round_val hf]
    have hr := plane_residual (P := P) (t := t.val) hN (show |n - n| ≤ 0 by simp) h0 (by rw [htv]; exact P.fl_err_u _)
    have e3 : n * t.val + ∑ i, (p.normal (axis.succAbove i)).val * (x i).val - d = t.val * n - (d - X) := by
      show n * t.val + X - d = _
      ring
    rw [e3]
    refine hr.trans ?_
    have hEv : E = ((1 + P.u) ^ S - 1) * A + S * (1 + P.u) ^ S * P.eta := rfl
    have k4 := mul_le_mul_of_nonneg_left hNA hu.le
    have hq : (1 : ℚ) ≤ (1 + P.u) ^ S := one_le_pow₀ (by linarith)
    show _ ≤ ((1 + P.u) ^ (S + 2) - 1) * (|d| + A) + ((S + 1) * (1 + P.u) ^ (S + 2) + |n|) * P.eta
    have key : |t.val| * 0 + (P.u * (|d| + A + E) + P.eta + E) + P.u * (|d| + A + (P.u * (|d| + A + E) + P.eta + E)) + P.eta * (|n| + 0) ≤
        ((1 + P.u) ^ (S + 2) - 1) * (|d| + A) + ((S + 1) * (1 + P.u) ^ (S + 2) + |n|) * P.eta := by
      rw [hEv, pow_add]
      generalize (1 + P.u) ^ S = w at hq ⊢
      have m1 : 0 ≤ |d| * ((w - 1) * (1 + P.u) ^ 2) := by
        have : 0 ≤ w - 1 := by linarith
        positivity
      have m2 : 0 ≤ (w * (1 + P.u) ^ 2 - (1 + P.u)) * P.eta := by
        refine mul_nonneg ?_ he.le
        nlinarith [mul_nonneg (show 0 ≤ w - 1 by linarith) (sq_nonneg (1 + P.u)), mul_nonneg hu.le hu.le]
      nlinarith [m1, m2]
    refine le_trans ?_ key
    have k5 : P.u * (|d - X| + (P.u * (|d| + A + E) + P.eta + E)) ≤ P.u * (|d| + A + (P.u * (|d| + A + E) + P.eta + E)) :=
      mul_le_mul_of_nonneg_left (by linarith) hu.le
    linarith
  · intro h0
    exact at_of_eq _ _ _ _ (by rw [hz, decide_eq_true h0])

/-- On a plane that is orthogonal to the axis the missing coordinate is exactly the distance of the plane (for any finite point); along the other
axes it is 0. -/
theorem C140_at_axis (P : BinPar) {S : ℕ} (junk : ℕ → Flt P.fmt) (dist : Flt P.fmt) (k axis : Fin (S + 1)) (x : Vec (Flt P.fmt) S)
    (hx : ∀ i, (x i).isFinite) :
    (⟨dist, axisVec P k⟩ : Plane (Flt P.fmt) (S + 1)).at_ junk x axis = if axis = k then dist else 0 := by
  have h1 : Cmp.eq (1 : Flt P.fmt) 0 = false := by rw [eq_zero_val Flt.one_finite, Flt.one_val]; simp
  have h0 : Cmp.eq (0 : Flt P.fmt) 0 = true := by rw [eq_zero_val Flt.zero_finite, Flt.zero_val]; simp
  by_cases h : axis = k
  · subst h
    have ha : axisVec P axis axis = 1 := if_pos rfl
    rw [if_pos rfl, at_of_ne _ _ _ _ (by show Cmp.eq (axisVec P axis axis) 0 = false; rw [ha, h1])]
    show (dist - dot (fun i => axisVec P axis (axis.succAbove i)) x) / axisVec P axis axis = dist
    have e : dot (fun i => axisVec P axis (axis.succAbove i)) x = 0 := by
      refine fold_zero _ fun i => ?_
      show (if axis.succAbove i = axis then (1 : Flt P.fmt) else 0) * x i = 0
      rw [if_neg (Fin.succAbove_ne _ _), Flt.zero_mul_fin (hx i)]
    rw [e, ha, Flt.div_one']
    show dist + -0 = dist
    exact Flt.add_zero' _
  · rw [if_neg h]
    refine at_of_eq _ _ _ _ ?_
    show Cmp.eq (if axis = k then (1 : Flt P.fmt) else 0) 0 = true
    rw [if_neg h, h0]

/-! ### Projected vectors -/

open Ap in
/-- The projection of a vector is as exact as the sizes of the vector and of the distance of the plane allow; `X` is a bound of both, and the
components of the normal are at most one.  If the normal has unit length then the exact value is the component of the vector along the plane. -/
theorem C140_project_vector (P : BinPar) {X : ℚ} (hX : ApOk P X) (p : Plane (Flt P.fmt) 3) (v : Vec (Flt P.fmt) 3)
    (hn : ∀ i, (p.normal i).isFinite ∧ |(p.normal i).val| ≤ 1) (hd : p.distance.isFinite ∧ |p.distance.val| ≤ X)
    (hv : ∀ i, (v i).isFinite ∧ |(v i).val| ≤ X) (i : Fin 3) :
    (p.projectVector v i).isFinite ∧
    |(p.projectVector v i).val - ((v i).val - (∑ j, (v j).val * (p.normal j).val) * (p.normal i).val +
      p.distance.val * (1 - ∑ j, (p.normal j).val ^ 2) * (p.normal i).val)| ≤ 66 * 2 ^ (-(P.p : ℤ)) * X := by
  have c : ∀ {q : ℚ} {Y : ℚ}, |q| ≤ Y → |(q : ℝ)| ≤ 1 * (Y : ℝ) := by
    intro q Y h
    rw [one_mul]
    exact_mod_cast h
  have an : ∀ j, Ap 1 0 1 (p.normal j) (p.normal j).val := fun j => Ap.exact (hn j).1 (by have := c (hn j).2; simpa using this)
  have ad : Ap (X : ℝ) 0 1 p.distance p.distance.val := Ap.exact hd.1 (c hd.2)
  have av : ∀ j, Ap (X : ℝ) 0 1 (v j) (v j).val := fun j => Ap.exact (hv j).1 (c (hv j).2)
  have hX0 : (0 : ℝ) ≤ X := by linarith [hX.one]
  have aa : ∀ j, Ap (X : ℝ) (101 / 100) (101 / 100) (p.normal j * p.distance) ((p.normal j).val * p.distance.val) := fun j =>
    ((an j).mul hX ad (by norm_num) (by norm_num) (by norm_num) (by norm_num) (by norm_num)).mono hX0 (by norm_num) (by norm_num)
  have as : ∀ j, Ap (X : ℝ) (305 / 100) (202 / 100) (p.normal j * p.distance + v j) ((p.normal j).val * p.distance.val + (v j).val) := fun j =>
    ((aa j).add hX (av j) (by norm_num)).mono hX0 (by norm_num) (by norm_num)
  have am : ∀ j, Ap (X : ℝ) (51 / 10) (204 / 100) ((p.normal j * p.distance + v j) * p.normal j)
      ((p.normal j).val * ((p.normal j).val * p.distance.val + (v j).val)) := fun j => by
    rw [Flt.mul_comm']
    exact ((an j).mul hX (as j) (by norm_num) (by norm_num) (by norm_num) (by norm_num) (by norm_num)).mono hX0 (by norm_num) (by norm_num)
  have as2 := ((am 0).add hX (am 1) (by norm_num)).mono (k1 := 144 / 10) (B1 := 41 / 10) hX0 (by norm_num) (by norm_num)
  have as3 := (as2.add hX (am 2) (by norm_num)).mono (k1 := 258 / 10) (B1 := 62 / 10) hX0 (by norm_num) (by norm_num)
  have ap := ((an i).mul hX as3 (by norm_num) (by norm_num) (by norm_num) (by norm_num) (by norm_num)).mono (k1 := 321 / 10) (B1 := 63 / 10) hX0
    (by norm_num) (by norm_num)
  have aq := ((as i).sub hX ap (by norm_num)).mono (k1 := 436 / 10) (B1 := 84 / 10) hX0 (by norm_num) (by norm_num)
  have ar := (aq.add hX (aa i) (by norm_num)).mono (k1 := 542 / 10) (B1 := 95 / 10) hX0 (by norm_num) (by norm_num)
  have az := (ar.sub hX (aa i) (by norm_num)).mono (k1 := 66) (B1 := 11) hX0 (by norm_num) (by norm_num)
  have e : p.projectVector v i = (p.normal i * p.distance + v i) - p.normal i * ((p.normal 0 * p.distance + v 0) * p.normal 0 +
      (p.normal 1 * p.distance + v 1) * p.normal 1 + (p.normal 2 * p.distance + v 2) * p.normal 2) + p.normal i * p.distance -
      p.normal i * p.distance := by
    show (p.normal i * p.distance + v i) - p.normal i * (0 + (p.normal 0 * p.distance + v 0) * p.normal 0 +
      (p.normal 1 * p.distance + v 1) * p.normal 1 + (p.normal 2 * p.distance + v 2) * p.normal 2) + p.normal i * p.distance -
      p.normal i * p.distance = _
    rw [Flt.zero_add']
  rw [e]
  refine ⟨az.fin, ?_⟩
  have h := az.err
  have h2 : ((|((p.normal i * p.distance + v i) - p.normal i * ((p.normal 0 * p.distance + v 0) * p.normal 0 +
      (p.normal 1 * p.distance + v 1) * p.normal 1 + (p.normal 2 * p.distance + v 2) * p.normal 2) + p.normal i * p.distance -
      p.normal i * p.distance).val - ((v i).val - (∑ j, (v j).val * (p.normal j).val) * (p.normal i).val +
      p.distance.val * (1 - ∑ j, (p.normal j).val ^ 2) * (p.normal i).val)| : ℚ) : ℝ) ≤ ((66 * P.u * X : ℚ) : ℝ) := by
    push_cast [Fin.sum_univ_three]
    refine le_trans (le_of_eq ?_) h
    congr 1
    ring
  exact_mod_cast h2

/-- Far from the origin the projection of a vector is lost, in every format with at least four exponents of integers: the vector (1, -1, 0) is
parallel to every plane with a normal (c, c, 0), but at a distance of 2ᵖ⁺³ the x and y coordinates of its projection are equal. -/
theorem C140_project_vector_fails (P : BinPar) (hq : 4 ≤ P.qmax) (c : Flt P.fmt) (hc : c.isFinite) (h1 : 1 / 2 ≤ c.val) (h2 : c.val < 1) :
    ∃ d : Flt P.fmt, d.isFinite ∧ d.val = 2 ^ (P.p + 3) ∧
      (∑ j, ((![1, -1, 0] : Vec (Flt P.fmt) 3) j).val * ((![c, c, 0] : Vec (Flt P.fmt) 3) j).val = 0) ∧
      (⟨d, ![c, c, 0]⟩ : Plane (Flt P.fmt) 3).projectVector ![1, -1, 0] 0 = (⟨d, ![c, c, 0]⟩ : Plane (Flt P.fmt) 3).projectVector ![1, -1, 0] 1 := by
  have hb : (2 : ℚ) ^ (P.p + 3) < P.bound := by
    unfold BinPar.bound
    rw [← zpow_natCast]
    exact zpow_lt_zpow_right₀ (by norm_num) (by push_cast; omega)
  have hr : P.fmt.rep (2 ^ (P.p + 3)) := by
    refine ⟨?_, by rw [abs_of_pos (by positivity)]; exact hb⟩
    refine ⟨1, P.p + 3, by rw [← zpow_natCast]; push_cast; ring, ?_, by have := P.hmin; omega⟩
    rw [abs_one]
    exact one_lt_pow₀ (by norm_num) (by have := P.hp; omega)
  refine ⟨Flt.fin _ hr, trivial, rfl, ?_, ?_⟩
  · rw [Fin.sum_univ_three]
    show (1 : Flt P.fmt).val * c.val + (-1 : Flt P.fmt).val * c.val + (0 : Flt P.fmt).val * (0 : Flt P.fmt).val = 0
    rw [Flt.neg_val, Flt.one_val, Flt.zero_val]
    ring
  · set d : Flt P.fmt := Flt.fin _ hr with hd
    have ha : (c * d).isFinite ∧ (c * d).val = c.val * 2 ^ (P.p + 3) := by
      obtain ⟨m, e, he, hm, hq'⟩ := (Flt.rep_val c).1
      have hrep : P.fmt.rep (c.val * 2 ^ (P.p + 3)) := by
        refine ⟨⟨m, e + (P.p + 3), ?_, hm, by omega⟩, ?_⟩
        · rw [he, zpow_add₀ (by norm_num), mul_assoc]
          congr 2
        · rw [abs_of_pos (by positivity)]
          refine lt_trans ?_ hb
          nlinarith [pow_pos (show (0 : ℚ) < 2 by norm_num) (P.p + 3)]
      have : c * d = Flt.fin _ hrep := by
        rw [Flt.mul_eq hc (show d.isFinite from trivial)]
        exact Flt.round_of_rep hrep
      rw [this]
      exact ⟨trivial, rfl⟩
    have key : ∀ s : Flt P.fmt, s.isFinite → |s.val| = 1 → c * d + s = c * d := by
      intro s hs hs1
      rw [Flt.add_eq ha.1 hs]
      have e1 : P.fl ((c * d).val + s.val) = (c * d).val := by
        refine TextL.fl_close (Flt.rep_val _).1 ?_
        rw [add_sub_cancel_left, hs1, ha.2, abs_of_pos (by positivity), pow_add, pow_add]
        nlinarith [pow_pos (show (0 : ℚ) < 2 by norm_num) P.p]
      rw [P.round_eq (by rw [e1]; exact (Flt.rep_val _).2)]
      obtain ⟨k1, k2⟩ := Flt.eq_fin ha.1
      conv_rhs => rw [k2]
      simp only [e1]
    show (c * d + 1) - c * (0 + (c * d + 1) * c + (c * d + -1) * c + (0 * d + 0) * 0) + c * d - c * d =
      (c * d + -1) - c * (0 + (c * d + 1) * c + (c * d + -1) * c + (0 * d + 0) * 0) + c * d - c * d
    rw [key 1 Flt.one_finite (by rw [Flt.one_val, abs_one]),
      key (-1) (Flt.neg_finite.2 Flt.one_finite) (by rw [Flt.neg_val, Flt.one_val, abs_neg, abs_one])]

/-! ### Aligned planes -/

theorem abs_lt_flt {a b : Flt P.fmt} (ha : a.isFinite) (hb : b.isFinite) : Cmp.lt (vm.abs a) (vm.abs b) = decide (|a.val| < |b.val|) := by
  have h : ∀ {x : Flt P.fmt}, x.isFinite → (vm.abs x).isFinite ∧ (vm.abs x).val = |x.val| := by
    intro x hx
    unfold vm.abs
    rw [Flt.lt_val hx Flt.zero_finite, Flt.zero_val]
    by_cases h0 : x.val < 0
    · rw [decide_eq_true h0, if_pos rfl, Flt.neg_val, abs_of_neg h0]; exact ⟨Flt.neg_finite.2 hx, rfl⟩
    · rw [decide_eq_false h0, if_neg (by simp), abs_of_nonneg (not_lt.1 h0)]; exact ⟨hx, rfl⟩
  rw [Flt.lt_val (h ha).1 (h hb).1, (h ha).2, (h hb).2]

/-- `aligned_orthogonal_plane` for finite vectors: the normal is exactly the positive or negative axis on which the direction is longest, and the
computed distance of the position from the plane is exactly 0; the distance of any other point is the correctly rounded difference of the
coordinates. -/
theorem C140_aligned (P : BinPar) (junk : ℕ → Flt P.fmt × ℕ) (position direction : Vec (Flt P.fmt) 3) (hp : ∀ i, (position i).isFinite)
    (hd : ∀ i, (direction i).isFinite) :
    ∃ (k : Fin 3) (p : Plane (Flt P.fmt) 3), Plane.alignedOrthogonal junk position direction = some p ∧
      (∀ j, |(direction j).val| ≤ |(direction k).val|) ∧
      p.normal = (if (direction k).val < 0 then -axisVec P k else axisVec P k) ∧
      p.distance = (if (direction k).val < 0 then -position k else position k) ∧
      p.pointDistance position = 0 ∧
      ∀ x : Vec (Flt P.fmt) 3, (∀ i, (x i).isFinite) →
        p.pointDistance x = if (direction k).val < 0 then position k - x k else x k - position k := by
  obtain ⟨k, h1, h2, -⟩ := sortVector_rank (fun l r => Cmp.lt (vm.abs l.1) (vm.abs r.1)) direction junk (fun i => |(direction i).val|)
    (fun i j => abs_lt_flt (hd i) (hd j)) 0 (by norm_num)
  have hmax : ∀ j, |(direction j).val| ≤ |(direction k).val| := by
    intro j
    rw [Nat.le_zero, Finset.card_eq_zero, Finset.filter_eq_empty_iff] at h2
    exact not_lt.1 (h2 (Finset.mem_univ j))
  have hidx : findAbsMaxComponent direction 0 junk = k.val := by rw [findAbsMaxComponent, h1]
  have hax : getAbsMaxComponentAxis direction 0 junk =
      some (if (direction k).val < 0 then -axisVec P k else axisVec P k) := by
    unfold getAbsMaxComponentAxis
    simp only [hidx, k.2, dite_true, Fin.eta]
    rw [Flt.lt_val (hd k) Flt.zero_finite, Flt.zero_val]
    simp only [decide_eq_true_eq]
    rfl
  have hdot : ∀ x : Vec (Flt P.fmt) 3, (∀ i, (x i).isFinite) →
      dot x (if (direction k).val < 0 then -axisVec P k else axisVec P k) = if (direction k).val < 0 then -x k else x k := by
    intro x hx
    split_ifs
    · refine (fsum_single (fun i => x i * (-axisVec P k) i) k fun j hj => ?_).trans ?_
      · show x j * -(if j = k then 1 else 0) = 0
        rw [if_neg hj]
        show x j * -0 = 0
        rw [show (-0 : Flt P.fmt) = 0 from Flt.neg_zero', Flt.mul_zero_fin (hx j)]
      · show x k * -(if k = k then 1 else 0) = -x k
        rw [if_pos rfl, Flt.mul_comm', Flt.neg_mul', Flt.one_mul']
    · exact dot_axisVec fun i _ => hx i
  refine ⟨k, _, by unfold Plane.alignedOrthogonal; rw [hax]; rfl, hmax, rfl, hdot position hp, ?_, ?_⟩
  · show dot position (if (direction k).val < 0 then -axisVec P k else axisVec P k) -
      dot position (if (direction k).val < 0 then -axisVec P k else axisVec P k) = 0
    rw [hdot position hp]
    split_ifs
    · exact Flt.sub_self_fin (Flt.neg_finite.2 (hp k))
    · exact Flt.sub_self_fin (hp k)
  · intro x hx
    show dot x (if (direction k).val < 0 then -axisVec P k else axisVec P k) -
      dot position (if (direction k).val < 0 then -axisVec P k else axisVec P k) = _
    rw [hdot position hp, hdot x hx]
    split_ifs
    · rw [Flt.sub_eq (Flt.neg_finite.2 (hx k)) (Flt.neg_finite.2 (hp k)), Flt.sub_eq (hp k) (hx k), Flt.neg_val, Flt.neg_val]
      congr 1
      ring
    · rfl

/-! ### Projecting along a direction -/

/-- The projection of a point along a direction: the result is, up to two roundings of each coordinate, the point with a parameter that satisfies
the equation of the plane up to the stated error. -/
theorem C140_project_along (P : BinPar) {S : ℕ} (p : Plane (Flt P.fmt) S) (x dir r : Vec (Flt P.fmt) S) (az : Flt P.fmt) (i0 : Fin S)
    (haz : az.isFinite) (h0 : 0 ≤ az.val) (hd : (dot dir p.normal).isFinite) (h : p.projectPointAlong az x dir = some r)
    (hr : ∀ i, (r i).isFinite) :
    ∃ t : ℚ, |t * (∑ i, (dir i).val * (p.normal i).val) -
        (p.distance.val * ∑ i, (p.normal i).val ^ 2 - ∑ i, (x i).val * (p.normal i).val)| ≤ planeHitErr t x dir p ∧
      ∀ i, |(r i).val - ((x i).val + t * (dir i).val)| ≤ ((1 + P.u) ^ 2 - 1) * (|(x i).val| + |t * (dir i).val|) + (1 + P.u) * P.eta := by
  unfold Plane.projectPointAlong at h
  simp only at h
  rcases hz : isZero (dot dir p.normal) az with _ | _
  · rw [hz] at h
    simp only [Bool.false_eq_true, if_false, Option.some.injEq] at h
    subst h
    set t := dot (vscale p.normal p.distance - x) p.normal / dot dir p.normal with ht
    have hf : t.isFinite := (Flt.mul_finite (Flt.add_finite (hr i0)).2).2
    exact ⟨t.val, plane_quot haz h0 hd hz rfl hf, fun i => (C110_point_at_distance P x dir t).1 i (hr i)⟩
  · rw [hz] at h
    simp at h

/-! ### Double precision -/

theorem dist_double : binary64.u = 1 / 2 ^ 53 ∧ binary64.eta ≤ 1 / 2 ^ 100 ∧ (2 : ℚ) ^ 100 ≤ binary64.bound := by
  refine ⟨?_, ?_, ?_⟩
  · show (2 : ℚ) ^ (-((53 : ℕ) : ℤ)) = _
    rw [zpow_neg, zpow_natCast, one_div]
  · show (2 : ℚ) ^ ((-1074 : ℤ) - 1) ≤ _
    have : (2 : ℚ) ^ ((-1074 : ℤ) - 1) ≤ 2 ^ (-((100 : ℕ) : ℤ)) := zpow_le_zpow_right₀ (by norm_num) (by norm_num)
    rwa [zpow_neg, zpow_natCast, ← one_div] at this
  · show (2 : ℚ) ^ 100 ≤ 2 ^ (((53 : ℕ) : ℤ) + 971)
    have : (2 : ℚ) ^ ((100 : ℕ) : ℤ) ≤ 2 ^ (((53 : ℕ) : ℤ) + 971) := zpow_le_zpow_right₀ (by norm_num) (by norm_num)
    rwa [zpow_natCast] at this

/-- In double precision with coordinates of at most 2¹⁷ and planes at a distance of at most 2¹⁹, the missing coordinate along an axis for which the
normal has a component of at least one half is finite, and the resulting point is inside the plane for `point_status` with its default tolerance. -/
theorem C140_at_double (junk : ℕ → Flt binary64.fmt) (p : Plane (Flt binary64.fmt) 3) (x : Vec (Flt binary64.fmt) 2) (axis : Fin 3)
    (hn : ∀ i, (p.normal i).isFinite ∧ |(p.normal i).val| ≤ 1) (hd : p.distance.isFinite ∧ |p.distance.val| ≤ 2 ^ 19)
    (hx : ∀ i, (x i).isFinite ∧ |(x i).val| ≤ 2 ^ 17) (ha : 1 / 2 ≤ |(p.normal axis).val|) :
    (p.at_ junk x axis).isFinite ∧
    |(p.normal axis).val * (p.at_ junk x axis).val + ∑ i, (p.normal (axis.succAbove i)).val * (x i).val - p.distance.val| ≤ 1 / 10 ^ 9 ∧
    p.pointStatus (axis.insertNth (p.at_ junk x axis) x) (Flt.round (1 / 10 ^ 4)) = .inside := by
  obtain ⟨hu, he, hb⟩ := dist_double
  have he0 := binary64.eta_pos
  have hn0 : (p.normal axis).val ≠ 0 := by intro h; rw [h, abs_zero] at ha; norm_num at ha
  have hA : ∑ i, |(p.normal (axis.succAbove i)).val * (x i).val| ≤ 2 ^ 18 := by
    have : ∑ i, |(p.normal (axis.succAbove i)).val * (x i).val| ≤ ∑ _i : Fin 2, (2 : ℚ) ^ 17 := by
      refine Finset.sum_le_sum fun i _ => ?_
      rw [abs_mul]
      have := mul_le_mul (hn (axis.succAbove i)).2 (hx i).2 (abs_nonneg _) (by norm_num)
      linarith
    refine this.trans (by norm_num)
  have hA0 : 0 ≤ ∑ i, |(p.normal (axis.succAbove i)).val * (x i).val| := Finset.sum_nonneg fun i _ => abs_nonneg _
  have hdot : (dot (fun i => p.normal (axis.succAbove i)) x).isFinite := by
    refine C97_dot_finite _ _ (fun i => (hn _).1) (fun i => (hx i).1) ?_
    show (1 + binary64.u) ^ 2 * ((∑ i, |(p.normal (axis.succAbove i)).val * (x i).val|) + (2 : ℕ) * binary64.eta) < binary64.bound
    refine lt_of_lt_of_le ?_ hb
    rw [hu]
    push_cast
    norm_num at hA he ⊢
    linarith
  have hde := dot_err _ _ hdot
  have hdv : |(dot (fun i => p.normal (axis.succAbove i)) x).val| ≤ 2 ^ 18 + 1 := by
    have h1 : |exactDot (fun i => p.normal (axis.succAbove i)) x| ≤ 2 ^ 18 := (Finset.abs_sum_le_sum_abs _ _).trans hA
    have h2 : dotErr binary64 2 (absDot (fun i => p.normal (axis.succAbove i)) x) ≤ 1 := by
      unfold dotErr
      have h3 : absDot (fun i => p.normal (axis.succAbove i)) x ≤ 2 ^ 18 := hA
      rw [hu]
      push_cast
      norm_num at h3 he ⊢
      linarith
    have h4 := abs_sub_abs_le_abs_sub (dot (fun i => p.normal (axis.succAbove i)) x).val (exactDot (fun i => p.normal (axis.succAbove i)) x)
    linarith
  have hs : (p.distance - dot (fun i => p.normal (axis.succAbove i)) x).isFinite ∧
      |(p.distance - dot (fun i => p.normal (axis.succAbove i)) x).val| ≤ 2 ^ 20 := by
    have h1 : |p.distance.val - (dot (fun i => p.normal (axis.succAbove i)) x).val| ≤ 2 ^ 19 + (2 ^ 18 + 1) :=
      (abs_sub _ _).trans (add_le_add hd.2 hdv)
    have h2 := binary64.fl_err_u (p.distance.val - (dot (fun i => p.normal (axis.succAbove i)) x).val)
    have h3 : |binary64.fl (p.distance.val - (dot (fun i => p.normal (axis.succAbove i)) x).val)| ≤ 2 ^ 20 := by
      have := abs_sub_abs_le_abs_sub (binary64.fl (p.distance.val - (dot (fun i => p.normal (axis.succAbove i)) x).val))
        (p.distance.val - (dot (fun i => p.normal (axis.succAbove i)) x).val)
      rw [hu] at h2
      norm_num at h1 h2 he this ⊢
      linarith
    have hf : (p.distance - dot (fun i => p.normal (axis.succAbove i)) x).isFinite := by
      rw [Flt.sub_eq hd.1 hdot]
      exact Flt.round_finite.2 (lt_of_le_of_lt h3 (lt_of_lt_of_le (by norm_num) hb))
    exact ⟨hf, by rw [Flt.sub_val hf]; exact h3⟩
  have hat : p.at_ junk x axis = (p.distance - dot (fun i => p.normal (axis.succAbove i)) x) / p.normal axis :=
    at_of_ne _ _ _ _ (by rw [eq_zero_val (hn axis).1, decide_eq_false hn0])
  have ht : (p.at_ junk x axis).isFinite ∧ |(p.at_ junk x axis).val| ≤ 2 ^ 22 := by
    rw [hat, fin_div_fin hs.1 (hn axis).1 hn0]
    have h1 : |(p.distance - dot (fun i => p.normal (axis.succAbove i)) x).val / (p.normal axis).val| ≤ 2 ^ 21 := by
      rw [abs_div, div_le_iff₀ (by linarith)]
      have := hs.2
      norm_num at this ⊢
      linarith
    have h2 := binary64.fl_err_u ((p.distance - dot (fun i => p.normal (axis.succAbove i)) x).val / (p.normal axis).val)
    have h3 : |binary64.fl ((p.distance - dot (fun i => p.normal (axis.succAbove i)) x).val / (p.normal axis).val)| ≤ 2 ^ 22 := by
      have := abs_sub_abs_le_abs_sub (binary64.fl ((p.distance - dot (fun i => p.normal (axis.succAbove i)) x).val / (p.normal axis).val))
        ((p.distance - dot (fun i => p.normal (axis.succAbove i)) x).val / (p.normal axis).val)
      rw [hu] at h2
      norm_num at h1 h2 he this ⊢
      linarith
    have hf := Flt.round_finite.2 (lt_of_le_of_lt h3 (lt_of_lt_of_le (by norm_num : (2 : ℚ) ^ 22 < 2 ^ 100) hb))
    exact ⟨hf, by rw [Flt.round_val hf]; exact h3⟩
  have hres := (C140_at binary64 junk p x axis (hn axis).1).1 hn0 ht.1
  have hres2 : |(p.normal axis).val * (p.at_ junk x axis).val + ∑ i, (p.normal (axis.succAbove i)).val * (x i).val - p.distance.val| ≤
      1 / 10 ^ 9 := by
    refine hres.trans ?_
    have h1 := hd.2
    have h2 : |(p.normal axis).val| * binary64.eta ≤ 1 * binary64.eta := mul_le_mul_of_nonneg_right (hn axis).2 he0.le
    rw [hu, add_mul]
    push_cast
    norm_num at hA h1 h2 he ⊢
    linarith
  refine ⟨ht.1, hres2, ?_⟩
  set t := p.at_ junk x axis with htd
  set y : Vec (Flt binary64.fmt) 3 := axis.insertNth t x with hy
  have y0 : y axis = t := by simp [hy]
  have y1 : ∀ i, y (axis.succAbove i) = x i := fun i => by simp [hy]
  have hyf : ∀ i, (y i).isFinite := by
    intro i
    rcases Fin.eq_self_or_eq_succAbove axis i with h | ⟨j, h⟩
    · rw [h, y0]; exact ht.1
    · rw [h, y1]; exact (hx j).1
  have hsum : ∑ i, (y i).val * (p.normal i).val = (p.normal axis).val * t.val + ∑ i, (p.normal (axis.succAbove i)).val * (x i).val := by
    have h2 : ∑ i, (y (axis.succAbove i)).val * (p.normal (axis.succAbove i)).val = ∑ i, (p.normal (axis.succAbove i)).val * (x i).val :=
      Finset.sum_congr rfl fun i _ => by rw [y1, mul_comm]
    rw [Fin.sum_univ_succAbove _ axis, y0, h2, mul_comm t.val]
  have habs : ∑ i, |(y i).val * (p.normal i).val| ≤ 2 ^ 23 := by
    rw [Fin.sum_univ_succAbove _ axis, y0]
    have h1 : |t.val * (p.normal axis).val| ≤ 2 ^ 22 := by
      rw [abs_mul]
      have := mul_le_mul ht.2 (hn axis).2 (abs_nonneg _) (by norm_num)
      linarith
    have h2 : ∑ i, |(y (axis.succAbove i)).val * (p.normal (axis.succAbove i)).val| = ∑ i, |(p.normal (axis.succAbove i)).val * (x i).val| :=
      Finset.sum_congr rfl fun i _ => by rw [y1, mul_comm]
    rw [h2]
    norm_num at hA h1 ⊢
    linarith
  have habs0 : 0 ≤ ∑ i, |(y i).val * (p.normal i).val| := Finset.sum_nonneg fun i _ => abs_nonneg _
  have hyd : (dot y p.normal).isFinite := by
    refine C97_dot_finite _ _ hyf (fun i => (hn i).1) ?_
    show (1 + binary64.u) ^ 3 * ((∑ i, |(y i).val * (p.normal i).val|) + (3 : ℕ) * binary64.eta) < binary64.bound
    refine lt_of_lt_of_le ?_ hb
    rw [hu]
    push_cast
    norm_num at habs he ⊢
    linarith
  have hydv : |(dot y p.normal).val| ≤ 2 ^ 24 := by
    have h1 : |exactDot y p.normal| ≤ 2 ^ 23 := (Finset.abs_sum_le_sum_abs _ _).trans habs
    have h2 : dotErr binary64 3 (absDot y p.normal) ≤ 1 := by
      unfold dotErr
      have h3 : absDot y p.normal ≤ 2 ^ 23 := habs
      rw [hu]
      push_cast
      norm_num at h3 he ⊢
      linarith
    have h4 := abs_sub_abs_le_abs_sub (dot y p.normal).val (exactDot y p.normal)
    have h5 := dot_err _ _ hyd
    norm_num at h1 ⊢
    linarith
  have hpd : (p.pointDistance y).isFinite := by
    show (dot y p.normal - p.distance).isFinite
    rw [Flt.sub_eq hyd hd.1]
    refine Flt.round_finite.2 (lt_of_lt_of_le ?_ hb)
    have h1 : |(dot y p.normal).val - p.distance.val| ≤ 2 ^ 24 + 2 ^ 19 := (abs_sub _ _).trans (add_le_add hydv hd.2)
    have h2 := binary64.fl_err_u ((dot y p.normal).val - p.distance.val)
    have h3 := abs_sub_abs_le_abs_sub (binary64.fl ((dot y p.normal).val - p.distance.val)) ((dot y p.normal).val - p.distance.val)
    rw [hu] at h2
    norm_num at h1 h2 h3 he ⊢
    linarith
  have hev : |binary64.fl (1 / 10 ^ 4) - 1 / 10 ^ 4| ≤ 1 / 10 ^ 6 := by
    refine (binary64.fl_err_u _).trans ?_
    rw [hu, abs_of_pos (by norm_num)]
    have : (1 / 2 ^ 53 : ℚ) * (1 / 10 ^ 4) + 1 / 2 ^ 100 ≤ 1 / 10 ^ 6 := by norm_num
    linarith
  obtain ⟨z1, z2⟩ := abs_le.1 hev
  have heps : (Flt.round (1 / 10 ^ 4) : Flt binary64.fmt).isFinite := by
    rw [Flt.round_finite, abs_lt]
    norm_num at z1 z2 hb ⊢
    constructor <;> linarith
  refine (C97_point_status p y _ heps hpd _ _ rfl rfl).2.2 ?_
  rw [Flt.round_val heps, hsum]
  have hD := hres2
  set D := (p.normal axis).val * t.val + ∑ i, (p.normal (axis.succAbove i)).val * (x i).val - p.distance.val
  have hB : distErr binary64 3 (∑ i, |(y i).val * (p.normal i).val|) D ≤ 1 / 10 ^ 7 := by
    show binary64.u * |D| + (1 + binary64.u) * (((1 + binary64.u) ^ 3 - 1) * (∑ i, |(y i).val * (p.normal i).val|) +
      (3 : ℕ) * (1 + binary64.u) ^ 3 * binary64.eta) ≤ _
    rw [hu]
    push_cast
    norm_num at habs he hD ⊢
    linarith
  norm_num at hD hB z1 ⊢
  linarith

/-- In `float` this is not so: for the plane with the normal (0.6, 0, 0.8) and the distance 1, the point with the missing coordinate above
(-106760, 0) is reported below the plane. -/
theorem C140_at_fails : ∃ (p : Plane (Flt binary32.fmt) 3) (x : Vec (Flt binary32.fmt) 2),
    (∀ i, (x i).isFinite ∧ |(x i).val| ≤ 2 ^ 17) ∧ (p.normal = ![Flt.round (6 / 10), 0, Flt.round (8 / 10)]) ∧ p.distance = 1 ∧
    ∀ junk, p.pointStatus ((2 : Fin 3).insertNth (p.at_ junk x 2) x) (Flt.round (1 / 10 ^ 4)) = .below := by
  have n0 : (Flt.round (6 / 10) : Flt binary32.fmt).isFinite ∧ (Flt.round (6 / 10) : Flt binary32.fmt).val = 5033165 / 8388608 :=
    is_round (by fl_num (-24) (10066330)) (lt_bound32 (by norm_num [abs_le]))
  have n2 : (Flt.round (8 / 10) : Flt binary32.fmt).isFinite ∧ (Flt.round (8 / 10) : Flt binary32.fmt).val = 13421773 / 16777216 :=
    is_round (by fl_num (-24) (13421773)) (lt_bound32 (by norm_num [abs_le]))
  have ep : (Flt.round (1 / 10 ^ 4) : Flt binary32.fmt).isFinite ∧ (Flt.round (1 / 10 ^ 4) : Flt binary32.fmt).val = 13743895 / 2 ^ 37 :=
    is_round (by fl_num (-37) (13743895)) (lt_bound32 (by norm_num [abs_le]))
  have x0 : (Flt.round (-106760) : Flt binary32.fmt).isFinite ∧ (Flt.round (-106760) : Flt binary32.fmt).val = -106760 :=
    is_round (by fl_num (-7) (-13665280)) (lt_bound32 (by norm_num [abs_le]))
  have d1 : (1 : Flt binary32.fmt).isFinite ∧ (1 : Flt binary32.fmt).val = 1 := ⟨Flt.one_finite, Flt.one_val⟩
  have t1 := is_mul (c := -16398337 / 256) n0 x0 (by fl_num (-8) (-16398337)) (lt_bound32 (by norm_num [abs_le]))
  have t2 := is_sub (c := 16398593 / 256) d1 t1 (by fl_num (-8) (16398593)) (lt_bound32 (by norm_num [abs_le]))
  have t3 := is_div (c := 320285 / 4) t2 n2 (by norm_num) (by fl_num (-7) (10249120)) (lt_bound32 (by norm_num [abs_le]))
  have t4 := is_mul (c := 64057) t3 n2 (by fl_num (-8) (16398592)) (lt_bound32 (by norm_num [abs_le]))
  have t5 := is_add (c := 255 / 256) t1 t4 (by fl_num (-24) (16711680)) (lt_bound32 (by norm_num [abs_le]))
  have t6 := is_sub (c := -1 / 256) t5 d1 (by fl_num (-31) (-8388608)) (lt_bound32 (by norm_num [abs_le]))
  have z0 : (0 * 0 : Flt binary32.fmt) = 0 := Flt.zero_mul_fin Flt.zero_finite
  refine ⟨⟨1, ![Flt.round (6 / 10), 0, Flt.round (8 / 10)]⟩, ![Flt.round (-106760), 0], ?_, rfl, rfl, ?_⟩
  · intro i
    fin_cases i
    · exact ⟨x0.1, by show |(Flt.round (-106760) : Flt binary32.fmt).val| ≤ _; rw [x0.2]; norm_num [abs_le]⟩
    · exact ⟨Flt.zero_finite, by show |(0 : Flt binary32.fmt).val| ≤ _; rw [Flt.zero_val]; norm_num⟩
  · intro junk
    rw [at_of_ne _ _ _ _ (by
      show Cmp.eq (Flt.round (8 / 10) : Flt binary32.fmt) 0 = false
      rw [eq_zero_val n2.1, n2.2]; norm_num)]
    have e : ((1 : Flt binary32.fmt) - dot (fun i => (![Flt.round (6 / 10), 0, Flt.round (8 / 10)] : Vec (Flt binary32.fmt) 3)
        ((2 : Fin 3).succAbove i)) ![Flt.round (-106760), 0]) = 1 - Flt.round (6 / 10) * Flt.round (-106760) := by
      have : dot (fun i => (![Flt.round (6 / 10), 0, Flt.round (8 / 10)] : Vec (Flt binary32.fmt) 3)
        ((2 : Fin 3).succAbove i)) ![Flt.round (-106760), 0] = Flt.round (6 / 10) * Flt.round (-106760) := by
        show 0 + Flt.round (6 / 10) * Flt.round (-106760) + 0 * 0 = _
        rw [z0, Flt.add_zero', Flt.zero_add']
      rw [this]
    show Plane.pointStatus _ ((2 : Fin 3).insertNth (((1 : Flt binary32.fmt) - dot (fun i => (![Flt.round (6 / 10), 0, Flt.round (8 / 10)] :
      Vec (Flt binary32.fmt) 3) ((2 : Fin 3).succAbove i)) ![Flt.round (-106760), 0]) / Flt.round (8 / 10)) ![Flt.round (-106760), 0]) _ = _
    rw [e]
    set y : Flt binary32.fmt := (1 - Flt.round (6 / 10) * Flt.round (-106760)) / Flt.round (8 / 10) with hy
    have hp : Plane.pointDistance (⟨1, ![Flt.round (6 / 10), 0, Flt.round (8 / 10)]⟩ : Plane (Flt binary32.fmt) 3)
        ((2 : Fin 3).insertNth y ![Flt.round (-106760), 0]) = Flt.round (6 / 10) * Flt.round (-106760) + y * Flt.round (8 / 10) - 1 := by
      show 0 + Flt.round (-106760) * Flt.round (6 / 10) + 0 * 0 + y * Flt.round (8 / 10) - 1 = _
      rw [z0, Flt.add_zero', Flt.zero_add', Flt.mul_comm' (Flt.round (-106760) : Flt binary32.fmt)]
    unfold Plane.pointStatus
    simp only
    rw [hp, Flt.lt_val ep.1 t6.1, Flt.lt_val t6.1 (Flt.neg_finite.2 ep.1), Flt.neg_val, ep.2, t6.2]
    norm_num

/-! ### The hypotheses are met -/

/-- A plane and a point for `C140_at_double`, and the exact result on an axis plane. -/
example : ∃ (p : Plane (Flt binary64.fmt) 3) (x : Vec (Flt binary64.fmt) 2), (∀ i, (p.normal i).isFinite ∧ |(p.normal i).val| ≤ 1) ∧
    (p.distance.isFinite ∧ |p.distance.val| ≤ 2 ^ 19) ∧ (∀ i, (x i).isFinite ∧ |(x i).val| ≤ 2 ^ 17) ∧ 1 / 2 ≤ |(p.normal 2).val| := by
  refine ⟨⟨1, ![0, 1, -1]⟩, ![1, 0], fun i => ?_, ⟨Flt.one_finite, by rw [Flt.one_val]; norm_num⟩, fun i => ?_, ?_⟩
  · rcases three' i with h | h | h <;> subst h
    · exact ⟨Flt.zero_finite, by show |(0 : Flt binary64.fmt).val| ≤ 1; rw [Flt.zero_val]; norm_num⟩
    · exact ⟨Flt.one_finite, by show |(1 : Flt binary64.fmt).val| ≤ 1; rw [Flt.one_val]; norm_num⟩
    · exact ⟨Flt.neg_finite.2 Flt.one_finite, by show |(-1 : Flt binary64.fmt).val| ≤ 1; rw [Flt.neg_val, Flt.one_val]; norm_num⟩
  · rcases two i with h | h <;> subst h
    · exact ⟨Flt.one_finite, by show |(1 : Flt binary64.fmt).val| ≤ _; rw [Flt.one_val]; norm_num⟩
    · exact ⟨Flt.zero_finite, by show |(0 : Flt binary64.fmt).val| ≤ _; rw [Flt.zero_val]; norm_num⟩
  · show 1 / 2 ≤ |(-1 : Flt binary64.fmt).val|
    rw [Flt.neg_val, Flt.one_val]; norm_num

example : ApOk binary64 ((2 ^ 19 : ℚ) : ℝ) := by
  refine ⟨?_, by norm_num, ?_⟩
  · have h : (1000 : ℚ) * binary64.u ≤ 1 := by rw [dist_double.1]; norm_num
    exact_mod_cast h
  · have h : 64 * (2 ^ 19 : ℚ) < binary64.bound := lt_of_lt_of_le (by norm_num) dist_double.2.2
    exact_mod_cast h

/-- The hypotheses of `C140_project_vector_fails`. -/
example : (4 : ℤ) ≤ binary64.qmax ∧ ∃ c : Flt binary64.fmt, c.isFinite ∧ 1 / 2 ≤ c.val ∧ c.val < 1 := by
  refine ⟨by decide, Flt.round (7 / 10), ?_⟩
  have h : binary64.fl (7 / 10) = 6305039478318694 / 2 ^ 53 := by fl_num (-53) (6305039478318694)
  have := is_round h (lt_bound64 (by norm_num [abs_le]))
  rw [this.2]
  exact ⟨this.1, by norm_num, by norm_num⟩

/-- A projection along a direction that is not parallel to the plane. -/
example : ∃ (p : Plane (Flt binary64.fmt) 1) (x dir r : Vec (Flt binary64.fmt) 1) (az : Flt binary64.fmt), az.isFinite ∧ 0 ≤ az.val ∧
    (dot dir p.normal).isFinite ∧ p.projectPointAlong az x dir = some r ∧ ∀ i, (r i).isFinite := by
  have e : dot (fun _ : Fin 1 => (1 : Flt binary64.fmt)) (fun _ => 1) = 1 := by
    show (0 : Flt binary64.fmt) + 1 * 1 = 1
    rw [Flt.zero_add', Flt.one_mul']
  refine ⟨⟨1, fun _ => 1⟩, fun _ => 0, fun _ => 1, fun _ => 1, 0, Flt.zero_finite, by rw [Flt.zero_val], by rw [e]; exact Flt.one_finite, ?_,
    fun _ => Flt.one_finite⟩
  unfold Plane.projectPointAlong
  simp only
  rw [e, isZero_flt Flt.one_finite Flt.zero_finite (by rw [Flt.zero_val]), Flt.one_val, Flt.zero_val]
  rw [if_neg (by norm_num)]
  have e2 : dot (vscale (fun _ : Fin 1 => (1 : Flt binary64.fmt)) 1 - fun _ => 0) (fun _ => 1) / 1 = 1 := by
    show (0 + (1 * 1 - 0) * 1) / (1 : Flt binary64.fmt) = 1
    rw [Flt.div_one', Flt.zero_add', Flt.mul_one', Flt.one_mul']
    exact Flt.add_zero' _
  rw [e2]
  congr 1
  funext i
  show (0 : Flt binary64.fmt) + 1 * 1 = 1
  rw [Flt.zero_add', Flt.one_mul']

end vm
