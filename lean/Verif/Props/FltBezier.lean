import Verif.Lemmas.FltBezier
import Verif.Props.FltTriangle

/-!
# C128: quadratic Bezier surfaces in IEEE arithmetic (bezier_surface.h)
-/

set_option linter.unusedSectionVars false
set_option linter.unusedSimpArgs false

namespace vm
open FltBez
variable {P : BinPar} {S : ℕ}

/-- The control points as rational numbers. -/
def patchVal (c : Fin 3 → Fin 3 → Vec (Flt P.fmt) S) : Fin 3 → Fin 3 → Vec ℚ S := fun i j k => (c i j k).val

/-- All control points are finite and at most `B` in size. -/
structure PatchLe (c : Fin 3 → Fin 3 → Vec (Flt P.fmt) S) (B : ℚ) : Prop where
  fin : ∀ i j k, (c i j k).isFinite
  le : ∀ i j k, |(c i j k).val| ≤ B

/-- A parameter between zero and one. -/
structure UnitPar (x : Flt P.fmt) : Prop where
  fin : x.isFinite
  ge : 0 ≤ x.val
  le : x.val ≤ 1

namespace FltBez

theorem unit_zero : UnitPar (0 : Flt P.fmt) := ⟨Flt.zero_finite, by rw [Flt.zero_val], by rw [Flt.zero_val]; norm_num⟩
theorem unit_one : UnitPar (1 : Flt P.fmt) := ⟨Flt.one_finite, by rw [Flt.one_val]; norm_num, by rw [Flt.one_val]⟩

theorem at_zero : bernstein0 (0 : Flt P.fmt) = 1 ∧ bernstein1 (0 : Flt P.fmt) = 0 ∧ bernstein2 (0 : Flt P.fmt) = 0 := by
  have z : (0 : Flt P.fmt) * 0 = 0 := Flt.zero_mul_fin Flt.zero_finite
  have t : (2 : Flt P.fmt) * 0 = 0 := Flt.mul_zero_fin (Flt.two_eq P).1
  refine ⟨?_, ?_, z⟩
  · show (1 - 2 * 0 + 0 * 0 : Flt P.fmt) = 1
    rw [t, z, Flt.add_zero', Flt.sub_zero']
  · show (2 * (0 - 0 * 0) : Flt P.fmt) = 0
    rw [z, Flt.sub_zero', t]

theorem at_one : bernstein0 (1 : Flt P.fmt) = 0 ∧ bernstein1 (1 : Flt P.fmt) = 0 ∧ bernstein2 (1 : Flt P.fmt) = 1 := by
  obtain ⟨⟨f0, v0⟩, ⟨f1, v1⟩, ⟨f2, v2⟩⟩ := weights_val (P := P) (x := 1) Flt.one_finite unit_one.ge unit_one.le
  have r1 : P.Rep 1 := by have := (Flt.rep_val (1 : Flt P.fmt)).1; rwa [Flt.one_val] at this
  have e1 : P.fl (1 * 1) = 1 := by rw [one_mul, P.fl_rep r1]
  have e2 : P.fl (1 - 2 * 1) = -1 := by rw [show (1 : ℚ) - 2 * 1 = -1 by norm_num, P.fl_rep r1.neg]
  rw [Flt.one_val] at v0 v1 v2
  rw [e1] at v0 v1 v2
  rw [e2, neg_add_cancel, P.fl_zero] at v0
  rw [sub_self, P.fl_zero, mul_zero] at v1
  exact ⟨FltTri.fin_val_inj f0 Flt.zero_finite v0, FltTri.fin_val_inj f1 Flt.zero_finite v1, FltTri.fin_val_inj f2 Flt.one_finite v2⟩

theorem interp_zero {p : Fin 3 → Vec (Flt P.fmt) S} (h1 : ∀ k, (p 1 k).isFinite) (h2 : ∀ k, (p 2 k).isFinite) : bezierInterpolate 0 p = p 0 := by
  funext k
  rw [interp_comp, at_zero.1, at_zero.2.1, at_zero.2.2, Flt.mul_one', Flt.mul_zero_fin (h1 k), Flt.mul_zero_fin (h2 k), Flt.add_zero', Flt.add_zero']

theorem interp_one {p : Fin 3 → Vec (Flt P.fmt) S} (h0 : ∀ k, (p 0 k).isFinite) (h1 : ∀ k, (p 1 k).isFinite) : bezierInterpolate 1 p = p 2 := by
  funext k
  rw [interp_comp, at_one.1, at_one.2.1, at_one.2.2, Flt.mul_one', Flt.mul_zero_fin (h0 k), Flt.mul_zero_fin (h1 k), Flt.add_zero', Flt.zero_add']

theorem interp_fin (hp : 11 ≤ P.p) {B : ℚ} (hB : 5 / 2 * B + 3 / 2 < P.bound) {x : Flt P.fmt} (hx : UnitPar x) {p : Fin 3 → Vec (Flt P.fmt) S}
    (hf : ∀ i k, (p i k).isFinite) (hb : ∀ i k, |(p i k).val| ≤ B) (k : Fin S) :
    ((bezierInterpolate x p k).isFinite ∧ (bezierInterpolate x p k).val = P.fl (P.fl (P.fl ((p 0 k).val * (bernstein0 x).val) +
        P.fl ((p 1 k).val * (bernstein1 x).val)) + P.fl ((p 2 k).val * (bernstein2 x).val))) ∧
      |(bezierInterpolate x p k).val - lerp x.val (p 0 k).val (p 1 k).val (p 2 k).val| ≤ 10 * P.u * B + 4 * P.eta := by
  rw [interp_comp]
  exact lerp_err hp hx.ge hx.le (weights hp hx.fin hx.ge hx.le) (hf 0 k) (hf 1 k) (hf 2 k) (hb 0 k) (hb 1 k) (hb 2 k) hB

/-- The sizes of the results of the first interpolations. -/
theorem second_bound (hp : 11 ≤ P.p) {B r l : ℚ} (hl : |l| ≤ B) (h : |r - l| ≤ 10 * P.u * B + 4 * P.eta) : |r| ≤ 1005 / 1000 * B + 1 / 500 := by
  have hu0 := P.u_pos
  have hu := u_small hp
  have he0 := Er.eta_pos P
  have he := eta_u P
  have hu2 : P.u * P.u ≤ P.u * (1 / 2048) := mul_le_mul_of_nonneg_left hu hu0.le
  have hB0 : 0 ≤ B := (abs_nonneg _).trans hl
  have huB : P.u * B ≤ 1 / 2048 * B := mul_le_mul_of_nonneg_right hu hB0
  have a := abs_le.1 h
  have b := abs_le.1 hl
  exact abs_le.2 ⟨by linarith, by linarith⟩

end FltBez

/-- The corners of the surface are exactly the corner control points. -/
theorem C128_corners {c : Fin 3 → Fin 3 → Vec (Flt P.fmt) S} (hc : ∀ i j k, (c i j k).isFinite) :
    evaluateBezier c 0 0 = c 0 0 ∧ evaluateBezier c 1 0 = c 0 2 ∧ evaluateBezier c 0 1 = c 2 0 ∧ evaluateBezier c 1 1 = c 2 2 := by
  have z : ∀ i, bezierInterpolate 0 (c i) = c i 0 := fun i => interp_zero (hc i 1) (hc i 2)
  have o : ∀ i, bezierInterpolate 1 (c i) = c i 2 := fun i => interp_one (hc i 0) (hc i 1)
  unfold evaluateBezier
  simp only [z, o]
  exact ⟨interp_zero (hc 1 0) (hc 2 0), interp_zero (hc 1 2) (hc 2 2), interp_one (hc 0 0) (hc 1 0), interp_one (hc 0 2) (hc 1 2)⟩

/-- Two surfaces that share a column of control points have bitwise the same points on the common border, for all parameters. -/
theorem C128_seam_u {c c' : Fin 3 → Fin 3 → Vec (Flt P.fmt) S} (hc : ∀ i j k, (c i j k).isFinite) (hc' : ∀ i j k, (c' i j k).isFinite)
    (h : ∀ i, c i 2 = c' i 0) (v : Flt P.fmt) : evaluateBezier c 1 v = evaluateBezier c' 0 v := by
  have z : ∀ i, bezierInterpolate 0 (c' i) = c' i 0 := fun i => interp_zero (hc' i 1) (hc' i 2)
  have o : ∀ i, bezierInterpolate 1 (c i) = c i 2 := fun i => interp_one (hc i 0) (hc i 1)
  unfold evaluateBezier
  simp only [z, o, h]

/-- The same for a common row of control points. -/
theorem C128_seam_v (hp : 11 ≤ P.p) {B : ℚ} (hB : 5 / 2 * B + 3 / 2 < P.bound) {c c' : Fin 3 → Fin 3 → Vec (Flt P.fmt) S} (hc : PatchLe c B)
    (hc' : PatchLe c' B) (h : c 2 = c' 0) {u : Flt P.fmt} (hu : UnitPar u) : evaluateBezier c u 1 = evaluateBezier c' u 0 := by
  have f := fun i k => (interp_fin hp hB hu (hc.fin i) (hc.le i) k).1.1
  have f' := fun i k => (interp_fin hp hB hu (hc'.fin i) (hc'.le i) k).1.1
  unfold evaluateBezier
  rw [interp_one (f 0) (f 1), interp_zero (f' 1) (f' 2)]
  show bezierInterpolate u (c 2) = bezierInterpolate u (c' 0)
  rw [h]

set_option maxHeartbeats 1000000 in
/-- Every coordinate is within 21 rounding units of the largest control point coordinate from the surface that is given by the Bernstein
polynomials. -/
theorem C128_error (hp : 11 ≤ P.p) {B : ℚ} (hB : 3 * B + 2 < P.bound) {c : Fin 3 → Fin 3 → Vec (Flt P.fmt) S} (hc : PatchLe c B)
    {u v : Flt P.fmt} (hu : UnitPar u) (hv : UnitPar v) (k : Fin S) :
    (evaluateBezier c u v k).isFinite ∧
      |(evaluateBezier c u v k).val - ∑ i, ∑ j, bern i v.val * bern j u.val * (c i j k).val| ≤ 21 * P.u * B + 9 * P.eta := by
  have hu0 := P.u_pos
  have hus := u_small hp
  have he0 := Er.eta_pos P
  have hB0 : 0 ≤ B := (abs_nonneg _).trans (hc.le 0 0 k)
  have hB1 : 5 / 2 * B + 3 / 2 < P.bound := by linarith
  have r := fun i => interp_fin hp hB1 hu (hc.fin i) (hc.le i) k
  have l := fun i => lerp_abs hu.ge hu.le (hc.le i 0 k) (hc.le i 1 k) (hc.le i 2 k)
  have m := fun i => second_bound hp (l i) (r i).2
  have r2 := lerp_err hp (B := 1005 / 1000 * B + 1 / 500) hv.ge hv.le (weights hp hv.fin hv.ge hv.le) (r 0).1.1 (r 1).1.1 (r 2).1.1 (m 0) (m 1) (m 2)
    (by linarith)
  -- a sharper size for the error
  have m' := fun i => (show |(bezierInterpolate u (c i) k).val| ≤ B + (10 * P.u * B + 4 * P.eta) by
    have a := abs_le.1 (r i).2
    have b := abs_le.1 (l i)
    exact abs_le.2 ⟨by linarith, by linarith⟩)
  have huB : P.u * B ≤ 1 / 2048 * B := mul_le_mul_of_nonneg_right hus hB0
  have he := eta_u P
  have hu2 : P.u * P.u ≤ P.u * (1 / 2048) := mul_le_mul_of_nonneg_left hus hu0.le
  have r3 := lerp_err hp (B := B + (10 * P.u * B + 4 * P.eta)) hv.ge hv.le (weights hp hv.fin hv.ge hv.le) (r 0).1.1 (r 1).1.1 (r 2).1.1 (m' 0) (m' 1)
    (m' 2) (by linarith)
  have e := surface_lerp (patchVal c) u.val v.val k
  rw [C74_bernstein] at e
  have e' : ∑ i, ∑ j, bern i v.val * bern j u.val * (c i j k).val = lerp v.val (lerp u.val (c 0 0 k).val (c 0 1 k).val (c 0 2 k).val)
      (lerp u.val (c 1 0 k).val (c 1 1 k).val (c 1 2 k).val) (lerp u.val (c 2 0 k).val (c 2 1 k).val (c 2 2 k).val) := by
    refine Eq.trans ?_ e
    simp only [Finset.sum_apply, Pi.smul_apply, smul_eq_mul, patchVal]
  have d := lerp_abs hv.ge hv.le (r 0).2 (r 1).2 (r 2).2
  rw [← lerp_sub] at d
  have ev : evaluateBezier c u v k = bezierInterpolate u (c 0) k * bernstein0 v + bezierInterpolate u (c 1) k * bernstein1 v +
      bezierInterpolate u (c 2) k * bernstein2 v := by
    unfold evaluateBezier
    rw [interp_comp]
    rfl
  rw [ev, e']
  refine ⟨r2.1.1, ?_⟩
  have a := abs_le.1 r3.2
  have b := abs_le.1 d
  have q : P.u * (10 * P.u * B + 4 * P.eta) ≤ 1 / 2048 * (10 * P.u * B + 4 * P.eta) := mul_le_mul_of_nonneg_right hus (by positivity)
  have q0 : 0 ≤ P.u * B := by positivity
  exact abs_le.2 ⟨by linarith, by linarith⟩

/-- The points leave a box that contains the control points by at most that error. -/
theorem C128_bounds (hp : 11 ≤ P.p) {B : ℚ} (hB : 3 * B + 2 < P.bound) {c : Fin 3 → Fin 3 → Vec (Flt P.fmt) S} (hc : PatchLe c B)
    {u v : Flt P.fmt} (hu : UnitPar u) (hv : UnitPar v) {lo hi : ℚ} {k : Fin S} (h : ∀ i j, lo ≤ (c i j k).val ∧ (c i j k).val ≤ hi) :
    lo - (21 * P.u * B + 9 * P.eta) ≤ (evaluateBezier c u v k).val ∧ (evaluateBezier c u v k).val ≤ hi + (21 * P.u * B + 9 * P.eta) := by
  have e := abs_le.1 (C128_error hp hB hc hu hv k).2
  have b := C74_bounds (fun i j (_ : Fin 1) => (c i j k).val) (fun _ => lo) (fun _ => hi) u.val v.val ⟨hu.ge, hu.le⟩ ⟨hv.ge, hv.le⟩ (fun i j _ => h i j) 0
  rw [C74_bernstein] at b
  simp only [Finset.sum_apply, Pi.smul_apply, smul_eq_mul] at b
  exact ⟨by linarith, by linarith⟩

/-- The points depend monotonically on the control points, coordinate by coordinate, in spite of all roundings. -/
theorem C128_monotone (hp : 11 ≤ P.p) {B : ℚ} (hB : 3 * B + 2 < P.bound) {c c' : Fin 3 → Fin 3 → Vec (Flt P.fmt) S} (hc : PatchLe c B)
    (hc' : PatchLe c' B) {u v : Flt P.fmt} (hu : UnitPar u) (hv : UnitPar v) {k : Fin S} (h : ∀ i j, (c i j k).val ≤ (c' i j k).val) :
    (evaluateBezier c u v k).val ≤ (evaluateBezier c' u v k).val := by
  have hB0 : 0 ≤ B := (abs_nonneg _).trans (hc.le 0 0 k)
  have hB1 : 5 / 2 * B + 3 / 2 < P.bound := by linarith
  have wu := weights hp hu.fin hu.ge hu.le
  have wv := weights hp hv.fin hv.ge hv.le
  have r := fun i => interp_fin hp hB1 hu (hc.fin i) (hc.le i) k
  have m := fun i => second_bound hp (lerp_abs hu.ge hu.le (hc.le i 0 k) (hc.le i 1 k) (hc.le i 2 k)) (r i).2
  have r' := fun i => interp_fin hp hB1 hu (hc'.fin i) (hc'.le i) k
  have m' := fun i => second_bound hp (lerp_abs hu.ge hu.le (hc'.le i 0 k) (hc'.le i 1 k) (hc'.le i 2 k)) (r' i).2
  have s := lerp_err hp (B := 1005 / 1000 * B + 1 / 500) hv.ge hv.le wv (r 0).1.1 (r 1).1.1 (r 2).1.1 (m 0) (m 1) (m 2) (by linarith)
  have s' := lerp_err hp (B := 1005 / 1000 * B + 1 / 500) hv.ge hv.le wv (r' 0).1.1 (r' 1).1.1 (r' 2).1.1 (m' 0) (m' 1) (m' 2) (by linarith)
  have ev : ∀ c : Fin 3 → Fin 3 → Vec (Flt P.fmt) S, evaluateBezier c u v k = bezierInterpolate u (c 0) k * bernstein0 v +
      bezierInterpolate u (c 1) k * bernstein1 v + bezierInterpolate u (c 2) k * bernstein2 v := by
    intro c
    unfold evaluateBezier
    rw [interp_comp]
    rfl
  have t : ∀ i, (bezierInterpolate u (c i) k).val ≤ (bezierInterpolate u (c' i) k).val := by
    intro i
    rw [(r i).1.2, (r' i).1.2]
    exact lerp_mono wu.n0 wu.n1 wu.n2 (h i 0) (h i 1) (h i 2)
  rw [ev, ev, s.1.2, s'.1.2]
  exact lerp_mono wv.n0 wv.n1 wv.n2 (t 0) (t 1) (t 2)

/-- If no control point has a negative coordinate then no point has, and likewise for positive coordinates. -/
theorem C128_sign (hp : 11 ≤ P.p) {B : ℚ} (hB : 3 * B + 2 < P.bound) {c : Fin 3 → Fin 3 → Vec (Flt P.fmt) S} (hc : PatchLe c B)
    {u v : Flt P.fmt} (hu : UnitPar u) (hv : UnitPar v) {k : Fin S} :
    ((∀ i j, 0 ≤ (c i j k).val) → 0 ≤ (evaluateBezier c u v k).val) ∧ ((∀ i j, (c i j k).val ≤ 0) → (evaluateBezier c u v k).val ≤ 0) := by
  have hB0 : 0 ≤ B := (abs_nonneg _).trans (hc.le 0 0 k)
  have hz : PatchLe (fun (_ _ : Fin 3) (_ : Fin S) => (0 : Flt P.fmt)) B := ⟨fun _ _ _ => Flt.zero_finite, fun _ _ _ => by rw [Flt.zero_val, abs_zero]; exact hB0⟩
  have m : ∀ x : Flt P.fmt, UnitPar x → bezierInterpolate x (fun (_ : Fin 3) (_ : Fin S) => (0 : Flt P.fmt)) = fun _ => 0 := by
    intro x hx
    have w := weights hp hx.fin hx.ge hx.le
    funext l
    rw [interp_comp, Flt.zero_mul_fin w.f0, Flt.zero_mul_fin w.f1, Flt.zero_mul_fin w.f2, Flt.add_zero', Flt.add_zero']
  have e : evaluateBezier (fun (_ _ : Fin 3) (_ : Fin S) => (0 : Flt P.fmt)) u v = fun _ => 0 := by
    unfold evaluateBezier
    rw [m u hu]
    have : (![fun _ => 0, fun _ => 0, fun _ => 0] : Fin 3 → Vec (Flt P.fmt) S) = fun _ _ => 0 := by
      funext i; fin_cases i <;> rfl
    rw [this, m v hv]
  constructor <;> intro h
  · have := C128_monotone hp hB hz hc hu hv (k := k) (fun i j => by rw [Flt.zero_val]; exact h i j)
    rw [e, Flt.zero_val] at this
    exact this
  · have := C128_monotone hp hB hc hz hu hv (k := k) (fun i j => by rw [Flt.zero_val]; exact h i j)
    rw [e, Flt.zero_val] at this
    exact this

/-- Control points on a grid `2 ^ g` and parameters `i / 2 ^ m`, `j / 2 ^ m` (a uniform subdivision): the points are exact if the grid has
`4 m` bits to spare. -/
theorem C128_grid {m i j : ℕ} (hi : i ≤ 2 ^ m) (hj : j ≤ 2 ^ m) {g N : ℤ} (hN : 1 ≤ N) (hp : N * 2 ^ (4 * m) < 2 ^ P.p) (ok : P.Ok (-(2 * m : ℤ)))
    (okg : P.Ok (g - 2 * m)) (okg' : P.Ok (g - 4 * m)) {c : Fin 3 → Fin 3 → Vec (Flt P.fmt) S} (hf : ∀ a b k, (c a b k).isFinite)
    (hc : ∀ a b k, ∃ z : ℤ, (c a b k).val = z * 2 ^ g ∧ |z| ≤ N) {u v : Flt P.fmt} (hu : u.isFinite ∧ u.val = i / 2 ^ m) (hv : v.isFinite ∧ v.val = j / 2 ^ m)
    (k : Fin S) : (evaluateBezier c u v k).isFinite ∧ (evaluateBezier c u v k).val = ∑ a, ∑ b, bern a v.val * bern b u.val * (c a b k).val := by
  have hQ : (1 : ℤ) ≤ 2 ^ m := one_le_pow₀ (by norm_num)
  have h8 : (2 : ℤ) ^ 3 ≤ 2 ^ P.p := pow_le_pow_right₀ (by norm_num) P.hp
  rw [show 4 * m = m * 4 by ring, pow_mul] at hp
  have hQ4 : (2 ^ m : ℤ) ^ 4 ≤ N * (2 ^ m) ^ 4 := le_mul_of_one_le_left (by positivity) hN
  have hm : 4 * (2 ^ m : ℤ) ^ 2 < 2 ^ P.p := by
    rcases Nat.eq_zero_or_pos m with h0 | h0
    · subst h0; norm_num at h8 ⊢; linarith
    · have h2 : (2 : ℤ) ≤ 2 ^ m := by
        calc (2 : ℤ) = 2 ^ 1 := by norm_num
          _ ≤ 2 ^ m := pow_le_pow_right₀ (by norm_num) h0
      have h4 : (4 : ℤ) ≤ (2 ^ m) ^ 2 := by nlinarith
      have : 4 * (2 ^ m : ℤ) ^ 2 ≤ (2 ^ m) ^ 4 := by
        rw [show (2 ^ m : ℤ) ^ 4 = (2 ^ m) ^ 2 * (2 ^ m) ^ 2 by ring]
        exact mul_le_mul_of_nonneg_right h4 (by positivity)
      linarith
  have hQ2 : (1 : ℤ) ≤ (2 ^ m) ^ 2 := one_le_pow₀ hQ
  have hN2 : N * (2 ^ m) ^ 2 ≤ N * (2 ^ m) ^ 2 * (2 ^ m) ^ 2 := le_mul_of_one_le_right (by positivity) hQ2
  have e4 : N * (2 ^ m : ℤ) ^ 2 * (2 ^ m) ^ 2 = N * (2 ^ m) ^ 4 := by ring
  choose z hz using hc
  have gr : ∀ a b, Gr g (c a b k) (z a b k) N := fun a b => ⟨hf a b k, (hz a b k).1, (hz a b k).2⟩
  have r := fun a => grid_lerp hi hm ok hu.1 hu.2 (g := g) (N := N) (by rw [← sub_eq_add_neg]; exact okg) (by linarith) (gr a 0) (gr a 1) (gr a 2)
  have ci : ∀ a, (c a 0 k * bernstein0 u + c a 1 k * bernstein1 u + c a 2 k * bernstein2 u) = bezierInterpolate u (c a) k := fun a => (interp_comp u (c a) k).symm
  simp only [ci] at r
  obtain ⟨z0, g0⟩ := (r 0).1
  obtain ⟨z1, g1⟩ := (r 1).1
  obtain ⟨z2, g2⟩ := (r 2).1
  obtain ⟨⟨z', g'⟩, e⟩ := grid_lerp hj hm ok hv.1 hv.2 (by rw [show g + -(2 * (m : ℤ)) + -(2 * (m : ℤ)) = g - 4 * m by ring]; exact okg') (by linarith) g0 g1 g2
  have ev : evaluateBezier c u v k = bezierInterpolate u (c 0) k * bernstein0 v + bezierInterpolate u (c 1) k * bernstein1 v +
      bezierInterpolate u (c 2) k * bernstein2 v := by
    unfold evaluateBezier
    rw [interp_comp]
    rfl
  have s := surface_lerp (patchVal c) u.val v.val k
  rw [C74_bernstein] at s
  have e' : ∑ i, ∑ j, bern i v.val * bern j u.val * (c i j k).val = lerp v.val (lerp u.val (c 0 0 k).val (c 0 1 k).val (c 0 2 k).val)
      (lerp u.val (c 1 0 k).val (c 1 1 k).val (c 1 2 k).val) (lerp u.val (c 2 0 k).val (c 2 1 k).val (c 2 2 k).val) := by
    refine Eq.trans ?_ s
    simp only [Finset.sum_apply, Pi.smul_apply, smul_eq_mul, patchVal]
  rw [ev, e']
  refine ⟨g'.fin, ?_⟩
  rw [e, (r 0).2, (r 1).2, (r 2).2]

namespace FltBez

theorem eval32_a {x a : Flt binary32.fmt} (hx : x.isFinite ∧ x.val = 4670777 / 67108864) (h1 : a.isFinite ∧ a.val = 1) :
    (a * bernstein0 x + a * bernstein1 x + a * bernstein2 x).val = 8388609 / 8388608 := by
  have one : (1 : Flt binary32.fmt).isFinite ∧ (1 : Flt binary32.fmt).val = 1 := ⟨trivial, rfl⟩
  have two := Flt.two_eq binary32
  have x1 := is_mul (c := (10402755 / 2147483648)) hx hx (by fl_num (-31) (10402755)) (lt_bound32 (by norm_num [abs_le]))
  have x2 := is_mul (c := (4670777 / 33554432)) two hx (by fl_num (-26) (9341554)) (lt_bound32 (by norm_num [abs_le]))
  have x3 := is_sub (c := (3610457 / 4194304)) one x2 (by fl_tie (-24) (14441828)) (lt_bound32 (by norm_num [abs_le]))
  have x4 := is_add (c := (3630775 / 4194304)) x3 x1 (by fl_num (-24) (14523100)) (lt_bound32 (by norm_num [abs_le]))
  have x5 := is_sub (c := (4345691 / 67108864)) hx x1 (by fl_num (-27) (8691382)) (lt_bound32 (by norm_num [abs_le]))
  have x6 := is_mul (c := (4345691 / 33554432)) two x5 (by fl_num (-26) (8691382)) (lt_bound32 (by norm_num [abs_le]))
  have x7 := is_mul (c := (3630775 / 4194304)) h1 x4 (by fl_num (-24) (14523100)) (lt_bound32 (by norm_num [abs_le]))
  have x8 := is_mul (c := (4345691 / 33554432)) h1 x6 (by fl_num (-26) (8691382)) (lt_bound32 (by norm_num [abs_le]))
  have x9 := is_add (c := (8347973 / 8388608)) x7 x8 (by fl_tie (-24) (16695946)) (lt_bound32 (by norm_num [abs_le]))
  have x10 := is_mul (c := (10402755 / 2147483648)) h1 x1 (by fl_num (-31) (10402755)) (lt_bound32 (by norm_num [abs_le]))
  have x11 := is_add (c := (8388609 / 8388608)) x9 x10 (by fl_num (-23) (8388609)) (lt_bound32 (by norm_num [abs_le]))
  exact x11.2

theorem eval32_b {x a b c : Flt binary32.fmt} (hx : x.isFinite ∧ x.val = 1 / 8192) (h1 : a.isFinite ∧ a.val = 1) (h0 : b.isFinite ∧ b.val = 0)
    (h3 : c.isFinite ∧ c.val = 3) : (a * bernstein0 x + b * bernstein1 x + c * bernstein2 x).val = 16773121 / 16777216 := by
  have one : (1 : Flt binary32.fmt).isFinite ∧ (1 : Flt binary32.fmt).val = 1 := ⟨trivial, rfl⟩
  have two := Flt.two_eq binary32
  have x1 := is_mul (c := (1 / 67108864)) hx hx (by fl_num (-49) (8388608)) (lt_bound32 (by norm_num [abs_le]))
  have x2 := is_mul (c := (1 / 4096)) two hx (by fl_num (-35) (8388608)) (lt_bound32 (by norm_num [abs_le]))
  have x3 := is_sub (c := (4095 / 4096)) one x2 (by fl_num (-24) (16773120)) (lt_bound32 (by norm_num [abs_le]))
  have x4 := is_add (c := (4095 / 4096)) x3 x1 (by fl_num (-24) (16773120)) (lt_bound32 (by norm_num [abs_le]))
  have x5 := is_sub (c := (8191 / 67108864)) hx x1 (by fl_num (-37) (16775168)) (lt_bound32 (by norm_num [abs_le]))
  have x6 := is_mul (c := (8191 / 33554432)) two x5 (by fl_num (-36) (16775168)) (lt_bound32 (by norm_num [abs_le]))
  have x7 := is_mul (c := (4095 / 4096)) h1 x4 (by fl_num (-24) (16773120)) (lt_bound32 (by norm_num [abs_le]))
  have x8 := is_mul (c := (0)) h0 x6 (by norm_num [BinPar.fl_zero]) (lt_bound32 (by norm_num [abs_le]))
  have x9 := is_add (c := (4095 / 4096)) x7 x8 (by fl_num (-24) (16773120)) (lt_bound32 (by norm_num [abs_le]))
  have x10 := is_mul (c := (3 / 67108864)) h3 x1 (by fl_num (-48) (12582912)) (lt_bound32 (by norm_num [abs_le]))
  have x11 := is_add (c := (16773121 / 16777216)) x9 x10 (by fl_num (-24) (16773121)) (lt_bound32 (by norm_num [abs_le]))
  exact x11.2

theorem eval32_c {x a b c : Flt binary32.fmt} (hx : x.isFinite ∧ x.val = 8191 / 8192) (h1 : a.isFinite ∧ a.val = 1) (h0 : b.isFinite ∧ b.val = 0)
    (h3 : c.isFinite ∧ c.val = 3) : (c * bernstein0 x + b * bernstein1 x + a * bernstein2 x).val = 4095 / 4096 := by
  have one : (1 : Flt binary32.fmt).isFinite ∧ (1 : Flt binary32.fmt).val = 1 := ⟨trivial, rfl⟩
  have two := Flt.two_eq binary32
  have x1 := is_mul (c := (4095 / 4096)) hx hx (by fl_num (-24) (16773120)) (lt_bound32 (by norm_num [abs_le]))
  have x2 := is_mul (c := (8191 / 4096)) two hx (by fl_num (-23) (16775168)) (lt_bound32 (by norm_num [abs_le]))
  have x3 := is_sub (c := (-4095 / 4096)) one x2 (by fl_num (-24) (-16773120)) (lt_bound32 (by norm_num [abs_le]))
  have x4 := is_add (c := (0)) x3 x1 (by norm_num [BinPar.fl_zero]) (lt_bound32 (by norm_num [abs_le]))
  have x5 := is_sub (c := (1 / 8192)) hx x1 (by fl_num (-36) (8388608)) (lt_bound32 (by norm_num [abs_le]))
  have x6 := is_mul (c := (1 / 4096)) two x5 (by fl_num (-35) (8388608)) (lt_bound32 (by norm_num [abs_le]))
  have x7 := is_mul (c := (0)) h3 x4 (by norm_num [BinPar.fl_zero]) (lt_bound32 (by norm_num [abs_le]))
  have x8 := is_mul (c := (0)) h0 x6 (by norm_num [BinPar.fl_zero]) (lt_bound32 (by norm_num [abs_le]))
  have x9 := is_add (c := (0)) x7 x8 (by norm_num [BinPar.fl_zero]) (lt_bound32 (by norm_num [abs_le]))
  have x10 := is_mul (c := (4095 / 4096)) h1 x1 (by fl_num (-24) (16773120)) (lt_bound32 (by norm_num [abs_le]))
  have x11 := is_add (c := (4095 / 4096)) x9 x10 (by fl_num (-24) (16773120)) (lt_bound32 (by norm_num [abs_le]))
  exact x11.2

/-- The number three. -/
theorem three32 : (Flt.round 3 : Flt binary32.fmt).isFinite ∧ (Flt.round 3 : Flt binary32.fmt).val = 3 :=
  is_round (by fl_num (-22) 12582912) (lt_bound32 (by norm_num [abs_le]))

end FltBez

/-- The rounded weights do not add up to one: the surface of nine equal control points has a point outside of the box of the control
points (single precision). -/
theorem C128_constant_fails : ∃ u : Flt binary32.fmt, UnitPar u ∧ 1 < (evaluateBezier (fun _ _ (_ : Fin 1) => (1 : Flt binary32.fmt)) u 0 0).val := by
  have hx := is_round (P := binary32) (q := 4670777 / 67108864) (c := 4670777 / 67108864) (by fl_num (-27) 9341554) (lt_bound32 (by norm_num [abs_le]))
  have h1 : (1 : Flt binary32.fmt).isFinite ∧ (1 : Flt binary32.fmt).val = 1 := ⟨trivial, rfl⟩
  have hU : UnitPar (Flt.round (4670777 / 67108864) : Flt binary32.fmt) := ⟨hx.1, by rw [hx.2]; norm_num, by rw [hx.2]; norm_num⟩
  refine ⟨_, hU, ?_⟩
  have f := fun k => (interp_fin (P := binary32) (B := 1) (S := 1) (p := fun _ _ => 1) (by norm_num [binary32]) (by norm_num [BinPar.bound, binary32]) hU
    (fun _ _ => h1.1) (fun _ _ => by rw [h1.2, abs_one]) k).1.1
  unfold evaluateBezier
  rw [interp_zero (f ·) (f ·)]
  show 1 < (bezierInterpolate (Flt.round (4670777 / 67108864) : Flt binary32.fmt) (fun _ (_ : Fin 1) => 1) 0).val
  rw [interp_comp, eval32_a hx h1]
  norm_num

/-- Two surfaces that share a border but run through it in opposite directions need not have the same points on it: there is a gap (single
precision; the parameter of the second surface is exactly one minus the parameter of the first). -/
theorem C128_reverse_fails : ∃ (c c' : Fin 3 → Fin 3 → Vec (Flt binary32.fmt) 1) (u u' : Flt binary32.fmt), PatchLe c 3 ∧ (∀ i j, c' i j = c i (Fin.rev j)) ∧
    UnitPar u ∧ UnitPar u' ∧ u'.val = 1 - u.val ∧ evaluateBezier c u 0 ≠ evaluateBezier c' u' 0 := by
  have hx := is_round (P := binary32) (q := 1 / 8192) (c := 1 / 8192) (by fl_num (-36) 8388608) (lt_bound32 (by norm_num [abs_le]))
  have hy := is_round (P := binary32) (q := 8191 / 8192) (c := 8191 / 8192) (by fl_num (-24) 16775168) (lt_bound32 (by norm_num [abs_le]))
  have h1 : (1 : Flt binary32.fmt).isFinite ∧ (1 : Flt binary32.fmt).val = 1 := ⟨trivial, rfl⟩
  have h0 : (0 : Flt binary32.fmt).isFinite ∧ (0 : Flt binary32.fmt).val = 0 := ⟨trivial, rfl⟩
  have h3 := three32
  have hU : UnitPar (Flt.round (1 / 8192) : Flt binary32.fmt) := ⟨hx.1, by rw [hx.2]; norm_num, by rw [hx.2]; norm_num⟩
  have hV : UnitPar (Flt.round (8191 / 8192) : Flt binary32.fmt) := ⟨hy.1, by rw [hy.2]; norm_num, by rw [hy.2]; norm_num⟩
  have hc : PatchLe (fun (_ : Fin 3) (j : Fin 3) (_ : Fin 1) => (![1, 0, Flt.round 3] j : Flt binary32.fmt)) 3 := by
    refine ⟨fun i j k => ?_, fun i j k => ?_⟩
    · fin_cases j
      exacts [h1.1, h0.1, h3.1]
    · fin_cases j
      · show |(1 : Flt binary32.fmt).val| ≤ 3
        rw [h1.2]; norm_num
      · show |(0 : Flt binary32.fmt).val| ≤ 3
        rw [h0.2]; norm_num
      · show |(Flt.round 3 : Flt binary32.fmt).val| ≤ 3
        rw [h3.2]; norm_num
  have hb : 5 / 2 * (3 : ℚ) + 3 / 2 < binary32.bound := by norm_num [BinPar.bound, binary32]
  refine ⟨_, fun i j k => (![1, 0, Flt.round 3] (Fin.rev j) : Flt binary32.fmt), _, _, hc, fun i j => rfl, hU, hV, by rw [hx.2, hy.2]; norm_num, fun h => ?_⟩
  have f := fun i k => (interp_fin (by norm_num [binary32]) hb hU (hc.fin i) (hc.le i) k).1.1
  have f' := fun i k => (interp_fin (by norm_num [binary32]) hb hV (p := fun j k => (![1, 0, Flt.round 3] (Fin.rev j) : Flt binary32.fmt)) (fun j k => hc.fin i (Fin.rev j) k)
    (fun j k => hc.le i (Fin.rev j) k) k).1.1
  unfold evaluateBezier at h
  rw [interp_zero (f 1) (f 2), interp_zero (f' 1) (f' 2)] at h
  have e : (bezierInterpolate (Flt.round (1 / 8192) : Flt binary32.fmt) (fun (j : Fin 3) (_ : Fin 1) => (![1, 0, Flt.round 3] j : Flt binary32.fmt)) 0).val =
      (bezierInterpolate (Flt.round (8191 / 8192) : Flt binary32.fmt) (fun (j : Fin 3) (_ : Fin 1) => (![1, 0, Flt.round 3] (Fin.rev j) : Flt binary32.fmt)) 0).val :=
    congrArg Flt.val (congrFun h 0)
  rw [interp_comp, interp_comp] at e
  have e1 := (eval32_b hx h1 h0 h3).symm.trans (Eq.trans e (eval32_c hy h1 h0 h3))
  norm_num at e1

/-! ### The hypotheses are met -/

/-- A patch of integers. -/
example : ∃ (c : Fin 3 → Fin 3 → Vec (Flt binary32.fmt) 3) (u v : Flt binary32.fmt), PatchLe c 4096 ∧ UnitPar u ∧ UnitPar v ∧ 11 ≤ binary32.p ∧
    3 * (4096 : ℚ) + 2 < binary32.bound ∧ 5 / 2 * (4096 : ℚ) + 3 / 2 < binary32.bound ∧ (∀ i j, 0 ≤ (c i j 0).val) ∧
    evaluateBezier c u v ≠ c 0 0 := by
  have g := fun i j : Fin 3 => gr_int (S := 3) (P := binary32) (fun k => (![1000 * (i : ℤ), 100 * j, i * j - 1] k)) (M := 4096)
    (fun k => by fin_cases k <;> fin_cases i <;> fin_cases j <;> norm_num) (by norm_num [binary32])
  have v := fun i j k => (g i j k).val
  refine ⟨fun i j => intVec binary32 (fun k => (![1000 * (i : ℤ), 100 * j, i * j - 1] k)), 1, 1, ⟨fun i j k => (g i j k).fin, fun i j k => ?_⟩, unit_one, unit_one,
    by norm_num [binary32], by norm_num [BinPar.bound, binary32], by norm_num [BinPar.bound, binary32], fun i j => ?_, fun h => ?_⟩
  · rw [(g i j k).val, zpow_zero, mul_one]
    exact_mod_cast (g i j k).le
  · rw [(g i j 0).val, zpow_zero, mul_one]
    show (0 : ℚ) ≤ ((1000 * (i : ℤ) : ℤ) : ℚ)
    positivity
  · rw [(C128_corners (fun i j k => (g i j k).fin)).2.2.2] at h
    have e := congrArg Flt.val (congrFun h 0)
    rw [v, v] at e
    norm_num at e

/-- Eight subdivisions of a patch of integers up to 4095 are exact in single precision, 32 subdivisions of a patch of integers up to 2³² in
double precision. -/
example : (1 : ℤ) ≤ 4095 ∧ (4095 : ℤ) * 2 ^ (4 * 3) < 2 ^ binary32.p ∧ binary32.Ok (-(2 * (3 : ℕ) : ℤ)) ∧ binary32.Ok (0 - 2 * (3 : ℕ)) ∧
    binary32.Ok (0 - 4 * (3 : ℕ)) ∧ (2 ^ 32 : ℤ) * 2 ^ (4 * 5) < 2 ^ binary64.p ∧ binary64.Ok (-(2 * (5 : ℕ) : ℤ)) ∧ binary64.Ok (0 - 2 * (5 : ℕ)) ∧
    binary64.Ok (0 - 4 * (5 : ℕ)) := by
  norm_num [BinPar.Ok, binary32, binary64]

/-- A point in the middle of a curved patch, exactly. -/
example : ∃ (c : Fin 3 → Fin 3 → Vec (Flt binary32.fmt) 1) (u v : Flt binary32.fmt), u.val = 3 / 8 ∧ v.val = 1 / 8 ∧
    (evaluateBezier c u v 0).val = 195 / 4 := by
  have g := fun i j : Fin 3 => gr_int (S := 1) (P := binary32) (fun _ => 100 * (i : ℤ) * j + 64 * (j * (2 - j))) (M := 4095)
    (fun k => by fin_cases i <;> fin_cases j <;> norm_num) (by norm_num [binary32])
  have hu := is_round (P := binary32) (q := 3 / 8) (c := 3 / 8) (by fl_num (-25) 12582912) (lt_bound32 (by norm_num [abs_le]))
  have hv := is_round (P := binary32) (q := 1 / 8) (c := 1 / 8) (by fl_num (-26) 8388608) (lt_bound32 (by norm_num [abs_le]))
  have h := C128_grid (P := binary32) (S := 1) (m := 3) (i := 3) (j := 1) (g := 0) (N := 4095) (by norm_num) (by norm_num) (by norm_num) (by norm_num [binary32])
    (by norm_num [BinPar.Ok, binary32]) (by norm_num [BinPar.Ok, binary32]) (by norm_num [BinPar.Ok, binary32]) (c := fun i j => intVec binary32 fun _ => 100 * (i : ℤ) * j + 64 * (j * (2 - j)))
    (fun i j k => (g i j k).fin) (fun i j k => ⟨_, (g i j k).val, (g i j k).le⟩) (u := Flt.round (3 / 8)) (v := Flt.round (1 / 8)) ⟨hu.1, by rw [hu.2]; norm_num⟩
    ⟨hv.1, by rw [hv.2]; norm_num⟩ 0
  refine ⟨_, _, _, hu.2, hv.2, h.2.trans ?_⟩
  have e := fun i j => (g i j 0).val
  simp only [e, hu.2, hv.2, Fin.sum_univ_three, bern]
  norm_num [Nat.choose]

end vm
