import Verif.Lemmas.FltAng
import Verif.Props.FltQuat
import Verif.Props.FltQuadratic
import Verif.Props.FltPolygon

/-! C131: measured angles, and rotations given by quaternions from an axis and an angle, in IEEE arithmetic. -/

set_option linter.unusedSectionVars false
set_option linter.unusedSimpArgs false

namespace vm
variable {P : BinPar}

/-- C131: over the real numbers the generic definitions are the ones of the exact model. -/
theorem C131_model (v axis up : Vec ℝ 3) (t : ℝ) (q : Quat ℝ) :
    measureAngleG Real.arccos (2 * Real.pi) v axis up = measureAngle v axis up ∧
    Quat.ofAxisAngleG Real.sin Real.cos axis t = Quat.ofAxisAngle axis t ∧ Quat.angleG Real.arccos q = q.angle := by
  refine ⟨?_, rfl, rfl⟩
  unfold measureAngleG measureAngle
  simp [Cmp.le]

section measure
open FltAng FltRot

/-- C131: for vectors with components of size at most 1.02, `measure_angle` is a finite number between 0 and the constant `two_pi()`, and its cosine
is the exact dot product, limited to [-1, 1], up to 26 rounding errors.  (`unitRange x` is `x` limited to [-1, 1], `rvec` the vector as real
numbers.) -/
theorem C131_measure (hP : P = binary32 ∨ P = binary64) {ac : Flt P.fmt → Flt P.fmt} (hA : AccurateAcos P ac) {v a w : Vec (Flt P.fmt) 3}
    (hv : NearUnit v) (ha : NearUnit a) (hw : NearUnit w) :
    (measureAngleG ac P.twoPi v a w).isFinite ∧ 0 ≤ (measureAngleG ac P.twoPi v a w).val ∧
    (measureAngleG ac P.twoPi v a w).val ≤ P.twoPi.val ∧
    |Real.cos (measureAngleG ac P.twoPi v a w).val - unitRange (dot (rvec v) (rvec a))| ≤ 26 * P.u := by
  obtain ⟨α, -, -, h1, h2, h3, h4, h5⟩ := measure_cases hP hA hv ha hw
  have u0 := Ap.u_pos P
  refine ⟨h2, h3, h4, ?_⟩
  have k : |Real.cos (measureAngleG ac P.twoPi v a w).val - Real.cos α| ≤ 17 * P.u := by
    rcases h5 with ⟨-, h⟩ | ⟨-, h⟩
    · exact (Real.abs_cos_sub_cos_le _ _).trans (h.trans (by linarith))
    · rw [← Real.cos_two_pi_sub α]
      exact (Real.abs_cos_sub_cos_le _ _).trans h
  have := abs_sub_le (Real.cos (measureAngleG ac P.twoPi v a w).val) (Real.cos α) (unitRange (dot (rvec v) (rvec a)))
  linarith

/-- C131: the side.  If the exact value of `(axis × v) · up` exceeds 30 rounding errors, then the angle is at most `π` up to 7 rounding errors; if it
is below minus 30 rounding errors, then the angle is at least `π` up to 17. -/
theorem C131_side (hP : P = binary32 ∨ P = binary64) {ac : Flt P.fmt → Flt P.fmt} (hA : AccurateAcos P ac) {v a w : Vec (Flt P.fmt) 3}
    (hv : NearUnit v) (ha : NearUnit a) (hw : NearUnit w) :
    (30 * P.u < dot (cross (rvec a) (rvec v)) (rvec w) → ((measureAngleG ac P.twoPi v a w).val : ℝ) ≤ Real.pi + 7 * P.u) ∧
    (dot (cross (rvec a) (rvec v)) (rvec w) < -(30 * P.u) → Real.pi - 17 * P.u ≤ ((measureAngleG ac P.twoPi v a w).val : ℝ)) := by
  obtain ⟨α, h0, hpi, -, -, -, -, h5⟩ := measure_cases hP hA hv ha hw
  have u0 := Ap.u_pos P
  have t := (triple_ap (fmt_p hP) hv ha hw).err
  rw [mul_one] at t
  have t := abs_le.1 t
  constructor
  · intro h
    rcases h5 with ⟨-, h'⟩ | ⟨hn, -⟩
    · have := abs_le.1 h'; linarith
    · have : ((dot (cross a v) w).val : ℝ) < 0 := by exact_mod_cast hn
      linarith
  · intro h
    rcases h5 with ⟨hn, -⟩ | ⟨-, h'⟩
    · have : (0 : ℝ) ≤ ((dot (cross a v) w).val : ℝ) := by exact_mod_cast hn
      linarith
    · have := abs_le.1 h'; linarith

end measure

namespace FltAng
open FltRot

theorem comp_le_one {a : Vec ℝ 3} (ha : dot a a = 1) (i : Fin 3) : |a i| ≤ 1 := by
  rw [vm.dot3] at ha
  have := sq_nonneg (a 0); have := sq_nonneg (a 1); have := sq_nonneg (a 2)
  rw [abs_le_one_iff_mul_self_le_one]
  fin_cases i <;> simp only [Fin.zero_eta, Fin.mk_one, Fin.reduceFinMk] <;> nlinarith

theorem near_unit {v : Vec (Flt P.fmt) 3} {a : Vec ℝ 3} {ε : ℝ} (hv : ∀ i, (v i).isFinite) (ha : dot a a = 1) (hε : ε ≤ 1 / 100)
    (hd : ∀ i, |((v i).val : ℝ) - a i| ≤ ε) : NearUnit v := by
  refine ⟨hv, fun i => ?_⟩
  have k1 := abs_le.1 (comp_le_one ha i); have k2 := abs_le.1 (hd i)
  exact abs_le.2 ⟨by linarith, by linarith⟩

theorem mul_near {x y X Y A B E F : ℝ} (h1 : |x - X| ≤ E) (h2 : |y - Y| ≤ F) (hy : |y| ≤ B) (hX : |X| ≤ A) : |x * y - X * Y| ≤ E * B + A * F := by
  have : x * y - X * Y = (x - X) * y + X * (y - Y) := by ring
  rw [this]
  refine (abs_add_le _ _).trans ?_
  rw [abs_mul, abs_mul]
  have := mul_le_mul h1 hy (abs_nonneg _) ((abs_nonneg _).trans h1)
  have := mul_le_mul hX h2 (abs_nonneg _) ((abs_nonneg _).trans hX)
  linarith

theorem dot_near {x y X Y : Vec ℝ 3} {ε : ℝ} (hε : ε ≤ 1 / 100) (hX : ∀ i, |X i| ≤ 1) (hY : ∀ i, |Y i| ≤ 1) (h1 : ∀ i, |x i - X i| ≤ ε)
    (h2 : ∀ i, |y i - Y i| ≤ ε) : |dot x y - dot X Y| ≤ 6.03 * ε := by
  have e0 : 0 ≤ ε := (abs_nonneg _).trans (h1 0)
  have hy : ∀ i, |y i| ≤ 1.01 := fun i => by
    have k1 := abs_le.1 (hY i); have k2 := abs_le.1 (h2 i)
    exact abs_le.2 ⟨by linarith, by linarith⟩
  have m := fun i => abs_le.1 (mul_near (h1 i) (h2 i) (hy i) (hX i))
  have m0 := m 0; have m1 := m 1; have m2 := m 2
  rw [vm.dot3, vm.dot3]
  exact abs_le.2 ⟨by linarith, by linarith⟩

theorem triple_near {x y z X Y Z : Vec ℝ 3} {ε : ℝ} (hε : ε ≤ 1 / 100) (hX : ∀ i, |X i| ≤ 1) (hY : ∀ i, |Y i| ≤ 1) (hZ : ∀ i, |Z i| ≤ 1)
    (h1 : ∀ i, |x i - X i| ≤ ε) (h2 : ∀ i, |y i - Y i| ≤ ε) (h3 : ∀ i, |z i - Z i| ≤ ε) :
    |dot (cross x y) z - dot (cross X Y) Z| ≤ 18.3 * ε := by
  have e0 : 0 ≤ ε := (abs_nonneg _).trans (h1 0)
  have hy : ∀ i, |y i| ≤ 1.01 := fun i => by
    have k1 := abs_le.1 (hY i); have k2 := abs_le.1 (h2 i)
    exact abs_le.2 ⟨by linarith, by linarith⟩
  have hz : ∀ i, |z i| ≤ 1.01 := fun i => by
    have k1 := abs_le.1 (hZ i); have k2 := abs_le.1 (h3 i)
    exact abs_le.2 ⟨by linarith, by linarith⟩
  have m : ∀ i j, |x i * y j - X i * Y j| ≤ 2.01 * ε := fun i j =>
    (mul_near (h1 i) (h2 j) (hy j) (hX i)).trans (by linarith)
  have b : ∀ i j, |X i * Y j| ≤ 1 := fun i j => by
    rw [abs_mul]; exact mul_le_one₀ (hX i) (abs_nonneg _) (hY j)
  have n : ∀ i j k, |x i * y j * z k - X i * Y j * Z k| ≤ 3.04 * ε := fun i j k =>
    (mul_near (m i j) (h3 k) (hz k) (b i j)).trans (by linarith)
  rw [vm.dot3, vm.dot3]
  simp only [cross_0, cross_1, cross_2]
  have n1 := abs_le.1 (n 1 2 0); have n2 := abs_le.1 (n 2 1 0); have n3 := abs_le.1 (n 2 0 1)
  have n4 := abs_le.1 (n 0 2 1); have n5 := abs_le.1 (n 0 1 2); have n6 := abs_le.1 (n 1 0 2)
  exact abs_le.2 ⟨by linarith, by linarith⟩

/-- What the exact angle satisfies. -/
theorem exact_angle {v a w : Vec ℝ 3} (hv : dot v v = 1) (ha : dot a a = 1) (hw : dot w w = 1) (haw : dot a w = 0) (hvw : dot v w = 0) :
    0 ≤ measureAngle v a w ∧ measureAngle v a w < 2 * Real.pi ∧ Real.cos (measureAngle v a w) = dot v a ∧
    Real.sin (measureAngle v a w) = dot (cross a v) w := by
  obtain ⟨h0, h1, h2⟩ := C25_measureAngle v a w hv ha hw haw hvw
  set θ := measureAngle v a w
  refine ⟨h0, h1, ?_, ?_⟩
  · conv_rhs => rw [h2]
    have e : dot (vscale a (Real.cos θ) + vscale (cross w a) (Real.sin θ)) a = Real.cos θ * dot a a := by
      simp only [vm.dot3, vscale, Pi.add_apply, cross_0, cross_1, cross_2]; ring
    rw [e, ha, mul_one]
  · conv_rhs => rw [h2]
    have e : dot (cross a (vscale a (Real.cos θ) + vscale (cross w a) (Real.sin θ))) w = Real.sin θ * (dot a a * dot w w - dot a w ^ 2) := by
      simp only [vm.dot3, vscale, Pi.add_apply, cross_0, cross_1, cross_2]; ring
    rw [e, ha, hw, haw]; ring

end FltAng

section measure
open FltAng FltRot

/-- C131: for unit vectors `v'` and `a'` orthogonal to the unit vector `w'`, and floating point vectors whose components differ from theirs by at
most `ε`: the exact angle from `a'` to `v'` about `w'` and the computed one differ by at most `(44 u + 19 ε) / |sin θ|`, if the sine of the exact
angle is greater than `30 u + 18.3 ε`. -/
theorem C131_measure_angle (hP : P = binary32 ∨ P = binary64) {ac : Flt P.fmt → Flt P.fmt} (hA : AccurateAcos P ac) {v a w : Vec (Flt P.fmt) 3}
    {v' a' w' : Vec ℝ 3} {ε : ℝ} (hv : dot v' v' = 1) (ha : dot a' a' = 1) (hw : dot w' w' = 1) (haw : dot a' w' = 0) (hvw : dot v' w' = 0)
    (hε : ε ≤ 1 / 100) (fv : ∀ i, (v i).isFinite) (fa : ∀ i, (a i).isFinite) (fw : ∀ i, (w i).isFinite)
    (dv : ∀ i, |((v i).val : ℝ) - v' i| ≤ ε) (da : ∀ i, |((a i).val : ℝ) - a' i| ≤ ε) (dw : ∀ i, |((w i).val : ℝ) - w' i| ≤ ε)
    (hs : 30 * P.u + 18.3 * ε < |Real.sin (measureAngle v' a' w')|) :
    |((measureAngleG ac P.twoPi v a w).val : ℝ) - measureAngle v' a' w'| ≤ (44 * P.u + 19 * ε) / |Real.sin (measureAngle v' a' w')| := by
  have u0 := Ap.u_pos P
  have e0 : 0 ≤ ε := (abs_nonneg _).trans (dv 0)
  obtain ⟨t0, t1, tc, ts⟩ := exact_angle hv ha hw haw hvw
  set θ := measureAngle v' a' w' with hθ
  have nv := near_unit fv hv hε dv
  have na := near_unit fa ha hε da
  have nw := near_unit fw hw hε dw
  obtain ⟨α, a0, a1, h1, -, -, -, h5⟩ := measure_cases hP hA nv na nw
  have s0 : 0 < |Real.sin θ| := by linarith
  have d1 := dot_near (x := rvec v) (y := rvec a) hε (comp_le_one hv) (comp_le_one ha) dv da
  have d2 := triple_near (x := rvec a) (y := rvec v) (z := rvec w) hε (comp_le_one ha) (comp_le_one hv) (comp_le_one hw) da dv dw
  have t := (triple_ap (fmt_p hP) nv na nw).err
  rw [mul_one] at t
  rw [← tc] at d1
  rw [← ts] at d2
  have c1 : |Real.cos α - Real.cos θ| ≤ 8.4 * P.u + 6.03 * ε := by
    have k := unitRange_sub (dot (rvec v) (rvec a)) (Real.cos θ)
    rw [unitRange_eq (Real.abs_cos_le_one θ)] at k
    have := abs_sub_le (Real.cos α) (unitRange (dot (rvec v) (rvec a))) (Real.cos θ)
    linarith
  have sl := Real.abs_sin_le_one θ
  have t := abs_le.1 t
  have d2 := abs_le.1 d2
  have pp := Real.pi_lt_d4
  have pc : Real.pi * |Real.cos α - Real.cos θ| ≤ 26.4 * P.u + 18.95 * ε := by
    have := mul_le_mul pp.le c1 (abs_nonneg _) (by norm_num)
    linarith
  rw [le_div_iff₀ s0]
  rcases lt_or_ge 0 (Real.sin θ) with hp | hn
  · rw [abs_of_pos hp] at hs s0 sl ⊢
    have hth : θ ≤ Real.pi := by
      by_contra hc
      push Not at hc
      have := Real.sin_nonneg_of_nonneg_of_le_pi (x := θ - Real.pi) (by linarith) (by linarith)
      rw [Real.sin_sub_pi] at this
      linarith
    rcases h5 with ⟨-, h⟩ | ⟨hn', -⟩
    · have k := arccos_near a0 a1 t0 hth
      have tri := abs_sub_le ((measureAngleG ac P.twoPi v a w).val : ℝ) α θ
      have m1 := mul_le_mul_of_nonneg_right tri hp.le
      have m2 := mul_le_mul h sl hp.le (by linarith)
      linarith
    · have : ((dot (cross a v) w).val : ℝ) < 0 := by exact_mod_cast hn'
      linarith
  · have hn : Real.sin θ < 0 := by
      rcases hn.lt_or_eq with h | h
      · exact h
      · rw [h, abs_zero] at s0; linarith
    rw [abs_of_neg hn] at hs s0 sl ⊢
    have hth : Real.pi ≤ θ := by
      by_contra hc
      push Not at hc
      have := Real.sin_nonneg_of_nonneg_of_le_pi t0 hc.le
      linarith
    rcases h5 with ⟨hn', -⟩ | ⟨-, h⟩
    · have : (0 : ℝ) ≤ ((dot (cross a v) w).val : ℝ) := by exact_mod_cast hn'
      linarith
    · have k := arccos_near (b := 2 * Real.pi - θ) a0 a1 (by linarith) (by linarith)
      rw [Real.cos_two_pi_sub, Real.sin_two_pi_sub] at k
      have tri := abs_sub_le ((measureAngleG ac P.twoPi v a w).val : ℝ) (2 * Real.pi - α) θ
      have e : |2 * Real.pi - α - θ| = |α - (2 * Real.pi - θ)| := by rw [← abs_neg]; congr 1; ring
      rw [e] at tri
      have m1 := mul_le_mul_of_nonneg_right tri s0.le
      have m2 := mul_le_mul h sl s0.le (by linarith)
      linarith

end measure

/-! ### Quaternions -/

section quat
open FltAng FltRot
variable {sn cs : Flt P.fmt → Flt P.fmt}

/-- C131: the components of the quaternion from an axis and an angle are finite and differ from those of the exact quaternion for the unit vector
`a` by at most 2.01 rounding errors in the real part, and 3.1 rounding errors and the error of the axis in the others. -/
theorem C131_quat (hp : 10 ≤ P.p) (hT : AccurateTrig P sn cs) {v : Vec (Flt P.fmt) 3} {a : Vec ℝ 3} {t : Flt P.fmt} {ε : ℝ}
    (hv : ∀ i, (v i).isFinite) (ha : dot a a = 1) (hε : ε ≤ 1 / 100) (hd : ∀ i, |((v i).val : ℝ) - a i| ≤ ε) (ht : t.isFinite) :
    QFinite (Quat.ofAxisAngleG sn cs v t) ∧
    |((Quat.ofAxisAngleG sn cs v t).r.val : ℝ) - (Quat.ofAxisAngle a t.val).r| ≤ 2.01 * P.u ∧
    ∀ i, |(((Quat.ofAxisAngleG sn cs v t).v i).val : ℝ) - (Quat.ofAxisAngle a t.val).v i| ≤ 3.1 * P.u + ε := by
  have ok := ok_one hp
  obtain ⟨f, e⟩ := half_angle ht
  have he := Ap.eta_small ok
  have u0 := Ap.u_pos P
  have c := cos_ap hp hT f
  have s := sin_ap hp hT f
  have dc := (Real.abs_cos_sub_cos_le ((t / 2).val : ℝ) ((t.val : ℝ) / 2)).trans e
  have ds := (Real.abs_sin_sub_sin_le ((t / 2).val : ℝ) ((t.val : ℝ) / 2)).trans e
  have nv := near_unit hv ha hε hd
  have m := fun i => Ap.mul ok (ap_of nv i) s (by norm_num) (by norm_num) (by norm_num) (by norm_num) (by norm_num)
  refine ⟨⟨c.fin, fun i => (m i).fin⟩, ?_, fun i => ?_⟩
  · have k1 := abs_le.1 c.err
    have k2 := abs_le.1 dc
    exact abs_le.2 ⟨by show _ ≤ ((cs (t / 2)).val : ℝ) - Real.cos _; linarith, by show ((cs (t / 2)).val : ℝ) - Real.cos _ ≤ _; linarith⟩
  · have k1 := (m i).err
    have k2 : |rvec v i * Real.sin ((t / 2).val : ℝ) - a i * Real.sin ((t.val : ℝ) / 2)| ≤ ε * 1 + 1 * P.eta :=
      mul_near (hd i) ds (Real.abs_sin_le_one _) (comp_le_one ha i)
    have k1 := abs_le.1 k1
    have k2 := abs_le.1 k2
    exact abs_le.2 ⟨by show _ ≤ ((v i * sn (t / 2)).val : ℝ) - a i * Real.sin _; linarith,
      by show ((v i * sn (t / 2)).val : ℝ) - a i * Real.sin _ ≤ _; linarith⟩

end quat

namespace FltAng

theorem rotate_explicit {K : Type*} [CommRing K] (q : Quat K) (v : Vec K 3) (i : Fin 3) : q.rotate v i =
    ![(q.r * q.r + q.v 0 * q.v 0 - q.v 1 * q.v 1 - q.v 2 * q.v 2) * v 0 + 2 * (q.v 0 * q.v 1 - q.r * q.v 2) * v 1
        + 2 * (q.v 0 * q.v 2 + q.r * q.v 1) * v 2,
      2 * (q.v 0 * q.v 1 + q.r * q.v 2) * v 0 + (q.r * q.r - q.v 0 * q.v 0 + q.v 1 * q.v 1 - q.v 2 * q.v 2) * v 1
        + 2 * (q.v 1 * q.v 2 - q.r * q.v 0) * v 2,
      2 * (q.v 0 * q.v 2 - q.r * q.v 1) * v 0 + 2 * (q.v 1 * q.v 2 + q.r * q.v 0) * v 1
        + (q.r * q.r - q.v 0 * q.v 0 - q.v 1 * q.v 1 + q.v 2 * q.v 2) * v 2] i := by
  unfold Quat.rotate Quat.mul Quat.conjugate
  fin_cases i <;> simp [vm.dot3] <;> ring

theorem rotate_near {q Q : Quat ℝ} {v : Vec ℝ 3} {δ V : ℝ} (hδ : δ ≤ 1 / 50) (hQ0 : |Q.r| ≤ 1) (hQ : ∀ i, |Q.v i| ≤ 1) (h0 : |q.r - Q.r| ≤ δ)
    (h : ∀ i, |q.v i - Q.v i| ≤ δ) (hv : ∀ i, |v i| ≤ V) (i : Fin 3) : |q.rotate v i - Q.rotate v i| ≤ 24.3 * δ * V := by
  have d0 : 0 ≤ δ := (abs_nonneg _).trans h0
  have b0 : |q.r| ≤ 1.02 := by
    have k1 := abs_le.1 hQ0; have k2 := abs_le.1 h0
    exact abs_le.2 ⟨by linarith, by linarith⟩
  have b : ∀ i, |q.v i| ≤ 1.02 := fun i => by
    have k1 := abs_le.1 (hQ i); have k2 := abs_le.1 (h i)
    exact abs_le.2 ⟨by linarith, by linarith⟩
  have rr := abs_le.1 (mul_near h0 h0 b0 hQ0)
  have rv := fun i => abs_le.1 (mul_near h0 (h i) (b i) hQ0)
  have vv := fun i j => abs_le.1 (mul_near (h i) (h j) (b j) (hQ i))
  have key : ∀ A B C A' B' C' : ℝ, |A - A'| ≤ 8.1 * δ → |B - B'| ≤ 8.1 * δ → |C - C'| ≤ 8.1 * δ →
      |(A * v 0 + B * v 1 + C * v 2) - (A' * v 0 + B' * v 1 + C' * v 2)| ≤ 24.3 * δ * V := by
    intro A B C A' B' C' hA hB hC
    have e : (A * v 0 + B * v 1 + C * v 2) - (A' * v 0 + B' * v 1 + C' * v 2) = (A - A') * v 0 + (B - B') * v 1 + (C - C') * v 2 := by ring
    rw [e]
    have m : ∀ D i, |D| ≤ 8.1 * δ → |D * v i| ≤ 8.1 * δ * V := fun D i hD => by
      rw [abs_mul]; exact mul_le_mul hD (hv i) (abs_nonneg _) (by linarith)
    have m0 := abs_le.1 (m _ 0 hA); have m1 := abs_le.1 (m _ 1 hB); have m2 := abs_le.1 (m _ 2 hC)
    exact abs_le.2 ⟨by linarith, by linarith⟩
  rw [rotate_explicit, rotate_explicit]
  have r0 := rv 0; have r1 := rv 1; have r2 := rv 2
  have v00 := vv 0 0; have v11 := vv 1 1; have v22 := vv 2 2; have v01 := vv 0 1; have v02 := vv 0 2; have v12 := vv 1 2
  fin_cases i
  · exact key _ _ _ _ _ _ (abs_le.2 ⟨by linarith, by linarith⟩) (abs_le.2 ⟨by linarith, by linarith⟩) (abs_le.2 ⟨by linarith, by linarith⟩)
  · exact key _ _ _ _ _ _ (abs_le.2 ⟨by linarith, by linarith⟩) (abs_le.2 ⟨by linarith, by linarith⟩) (abs_le.2 ⟨by linarith, by linarith⟩)
  · exact key _ _ _ _ _ _ (abs_le.2 ⟨by linarith, by linarith⟩) (abs_le.2 ⟨by linarith, by linarith⟩) (abs_le.2 ⟨by linarith, by linarith⟩)

/-- A rotated vector of rational numbers, seen as real numbers. -/
theorem rotate_cast (q : Quat ℚ) (v : Vec ℚ 3) (i : Fin 3) :
    ((q.rotate v i : ℚ) : ℝ) = Quat.rotate ⟨(q.r : ℝ), fun i => (q.v i : ℝ)⟩ (fun i => (v i : ℝ)) i := by
  rw [rotate_explicit, rotate_explicit]
  fin_cases i <;> simp

theorem axisAngle_le {a : Vec ℝ 3} (ha : dot a a = 1) (t : ℝ) : |(Quat.ofAxisAngle a t).r| ≤ 1 ∧ ∀ i, |(Quat.ofAxisAngle a t).v i| ≤ 1 := by
  refine ⟨Real.abs_cos_le_one _, fun i => ?_⟩
  show |a i * Real.sin _| ≤ 1
  rw [abs_mul]
  exact mul_le_one₀ (comp_le_one ha i) (abs_nonneg _) (Real.abs_sin_le_one _)

end FltAng

section quat
open FltAng FltRot
variable {sn cs : Flt P.fmt → Flt P.fmt}

/-- C131: rotating a vector of length at most `V` with `quat(axis, angle)`: every component of the result is finite and differs from what Rodrigues'
formula for the unit vector `a` gives by at most `(108 u + 25 ε) V`, and 47 times half of the least positive number. -/
theorem C131_quat_rotate (hp : 10 ≤ P.p) (hT : AccurateTrig P sn cs) {v : Vec (Flt P.fmt) 3} {a : Vec ℝ 3} {t : Flt P.fmt} {ε : ℝ}
    (hv : ∀ i, (v i).isFinite) (ha : dot a a = 1) (hε : ε ≤ 1 / 100) (hd : ∀ i, |((v i).val : ℝ) - a i| ≤ ε) (ht : t.isFinite)
    {p : Vec (Flt P.fmt) 3} {V : ℚ} (hf : ∀ i, (p i).isFinite) (hV : 0 ≤ V) (hpV : vnorm2 (vval p) ≤ V ^ 2) (hb : 300 * V + 300 < P.bound)
    (i : Fin 3) :
    ((Quat.ofAxisAngleG sn cs v t).rotate p i).isFinite ∧
    |(((Quat.ofAxisAngleG sn cs v t).rotate p i).val : ℝ) -
      (vscale (rvec p) (Real.cos t.val) + vscale (cross a (rvec p)) (Real.sin t.val) + vscale a (dot a (rvec p) * (1 - Real.cos t.val))) i|
      ≤ (108 * P.u + 25 * ε) * V + 47 * P.eta := by
  have u0 := Ap.u_pos P
  have hu := (ok_one hp).u
  have e0 : 0 ≤ ε := (abs_nonneg _).trans (hd 0)
  obtain ⟨q1, q2, q3⟩ := C131_quat hp hT hv ha hε hd ht
  rw [← ofAxisAngle_rodrigues a ha]
  set q := Quat.ofAxisAngleG sn cs v t with hq
  set Q := Quat.ofAxisAngle a t.val with hQ
  obtain ⟨b0, b1⟩ := axisAngle_le ha (t.val : ℝ)
  have hn : Q.r ^ 2 + (Q.v 0 ^ 2 + Q.v 1 ^ 2 + Q.v 2 ^ 2) = 1 := by
    have := ofAxisAngle_normSq a ha (t.val : ℝ)
    unfold Quat.normSq at this
    rw [hQ]; linarith
  have hq1 : qnorm2 (qval q) ≤ (1.06 : ℚ) ^ 2 := by
    have : ((qnorm2 (qval q) : ℚ) : ℝ) ≤ 1.06 ^ 2 := by
      unfold qnorm2 qval
      push_cast
      have sq : ∀ x y : ℝ, |x - y| ≤ 0.0131 → |y| ≤ 1 → x ^ 2 ≤ y ^ 2 + 0.0264 := by
        intro x y h h1
        have e : x ^ 2 = y ^ 2 + (x - y) * (2 * y + (x - y)) := by ring
        have : |(x - y) * (2 * y + (x - y))| ≤ 0.0131 * 2.0131 := by
          rw [abs_mul]
          refine mul_le_mul h ?_ (abs_nonneg _) (by norm_num)
          have k1 := abs_le.1 h; have k2 := abs_le.1 h1
          exact abs_le.2 ⟨by linarith, by linarith⟩
        have := (abs_le.1 this).2
        rw [e]; norm_num at this ⊢; linarith
      have s0 := sq _ _ (q2.trans (by norm_num at hu ⊢; linarith)) b0
      have s1 := sq _ _ ((q3 0).trans (by norm_num at hu ⊢; linarith)) (b1 0)
      have s2 := sq _ _ ((q3 1).trans (by norm_num at hu ⊢; linarith)) (b1 1)
      have s3 := sq _ _ ((q3 2).trans (by norm_num at hu ⊢; linarith)) (b1 2)
      norm_num at s0 s1 s2 s3 ⊢
      linarith
    have h2 : ((1.06 ^ 2 : ℚ) : ℝ) = 1.06 ^ 2 := by norm_num
    rw [← h2] at this
    exact_mod_cast this
  obtain ⟨f, e⟩ := C125_rotate P q p 1.06 V q1 hf (by norm_num) (by norm_num) hV hq1 hpV (by norm_num; linarith) i
  refine ⟨f, ?_⟩
  have e := (Rat.cast_le (K := ℝ)).2 e
  push_cast at e
  rw [rotate_cast] at e
  have hVR : (0 : ℝ) ≤ V := by exact_mod_cast hV
  have hc : ∀ j, |rvec p j| ≤ (V : ℝ) := fun j => by
    have := (Rat.cast_le (K := ℝ)).2 (FltQt.vcomp_le hV hpV j)
    push_cast at this
    exact this
  have n := rotate_near (q := ⟨((qval q).r : ℝ), fun i => ((qval q).v i : ℝ)⟩) (Q := Q) (v := rvec p) (δ := 3.1 * P.u + ε) (V := V)
    (by norm_num at hu ⊢; linarith) b0 b1 (q2.trans (by linarith)) q3 hc i
  have hE := (Rat.cast_pos (K := ℝ)).2 (Er.eta_pos P)
  have m1 := mul_nonneg u0.le hVR
  have m2 := mul_nonneg e0 hVR
  have k1 := abs_le.1 e
  have k2 := abs_le.1 n
  have e1 : 24.3 * (3.1 * (P.u : ℝ) + ε) * V = 75.33 * (P.u * V) + 24.3 * (ε * V) := by ring
  have e2 : 28 * (P.u : ℝ) * ((1.06 : ℝ) ^ 2 * V) = 31.4608 * (P.u * V) := by ring
  have e3 : (108 * (P.u : ℝ) + 25 * ε) * V = 108 * (P.u * V) + 25 * (ε * V) := by ring
  have vv : (fun i => ((vval p i : ℚ) : ℝ)) = rvec p := rfl
  rw [e1] at k2
  norm_num at e2 k1
  rw [vv] at k1
  rw [e3]
  norm_num at k2
  exact abs_le.2 ⟨by linarith [k1.1, k2.1], by linarith [k1.2, k2.2]⟩

theorem FltAng.angle_val (hp : 10 ≤ P.p) {ac : Flt P.fmt → Flt P.fmt} (hA : AccurateAcos P ac) {q : Quat (Flt P.fmt)} (hq : q.r.isFinite)
    (h1 : |q.r.val| ≤ 1) : (q.angleG ac).isFinite ∧ (q.angleG ac).val = 2 * (ac q.r).val := by
  have f := hA.fin _ hq h1
  have ok := ok_one hp
  refine is_mul (P := P) (Flt.two_eq P) ⟨f, rfl⟩ (P.fl_rep (Flt.rep_val _).1.double) ?_
  have n := hA.nonneg _ hq h1
  have l := (acos_err hp hA hq h1).2
  have : (((2 * (ac q.r).val : ℚ)) : ℝ) < ((64 : ℚ) : ℝ) := by push_cast; linarith
  have h64 : (64 : ℚ) < P.bound := by
    have := ok.bound
    rw [mul_one] at this
    exact_mod_cast this
  rw [abs_of_nonneg (by linarith)]
  exact lt_trans (by exact_mod_cast this) h64

/-- C131: `angle()` of a quaternion whose real part lies in [-1, 1] is finite, lies between 0 and `2π` up to 13 rounding errors, and the cosine of
its half is the real part up to 7 rounding errors. -/
theorem C131_angle (hp : 10 ≤ P.p) {ac : Flt P.fmt → Flt P.fmt} (hA : AccurateAcos P ac) {q : Quat (Flt P.fmt)} (hq : q.r.isFinite)
    (h1 : |q.r.val| ≤ 1) : (q.angleG ac).isFinite ∧ 0 ≤ (q.angleG ac).val ∧ ((q.angleG ac).val : ℝ) ≤ 2 * Real.pi + 13 * P.u ∧
    |Real.cos ((q.angleG ac).val / 2) - q.r.val| ≤ 7 * P.u := by
  obtain ⟨f, e⟩ := angle_val hp hA hq h1
  have h1' : |(q.r.val : ℝ)| ≤ 1 := by exact_mod_cast h1
  have k := (acos_err hp hA hq h1).1
  have u0 := Ap.u_pos P
  refine ⟨f, by rw [e]; linarith [hA.nonneg _ hq h1], ?_, ?_⟩
  · rw [e]; push_cast
    linarith [(abs_le.1 k).2, Real.arccos_le_pi (q.r.val : ℝ)]
  · rw [e]; push_cast
    rw [mul_div_cancel_left₀ _ (two_ne_zero' ℝ)]
    conv_lhs => rw [← Real.cos_arccos (abs_le.1 h1').1 (abs_le.1 h1').2]
    rw [Real.cos_arccos (abs_le.1 h1').1 (abs_le.1 h1').2]
    have := (Real.abs_cos_sub_cos_le ((ac q.r).val : ℝ) (Real.arccos q.r.val)).trans k
    rw [Real.cos_arccos (abs_le.1 h1').1 (abs_le.1 h1').2] at this
    linarith

/-- C131: the angle of the quaternion from an axis and an angle between 0 and `2π` is that angle, up to `26 u / sin (t / 2)`, if the cosine does not
exceed 1. -/
theorem C131_angle_back (hp : 10 ≤ P.p) {ac : Flt P.fmt → Flt P.fmt} (hA : AccurateAcos P ac) (hT : AccurateTrig P sn cs)
    (hc : ∀ x, x.isFinite → |(cs x).val| ≤ 1) (v : Vec (Flt P.fmt) 3) {t : Flt P.fmt} (ht : t.isFinite) (h0 : 0 < t.val)
    (h2 : (t.val : ℝ) < 2 * Real.pi) :
    |((Quat.ofAxisAngleG sn cs v t).angleG ac |>.val : ℝ) - t.val| ≤ 26 * P.u / Real.sin (t.val / 2) := by
  have ok := ok_one hp
  obtain ⟨f, e⟩ := half_angle ht
  have he := Ap.eta_small ok
  have u0 := Ap.u_pos P
  have c := (cos_ap hp hT f).err
  have dc := (Real.abs_cos_sub_cos_le ((t / 2).val : ℝ) ((t.val : ℝ) / 2)).trans e
  have h0' : (0 : ℝ) < t.val := by exact_mod_cast h0
  have b := hc _ f
  have b' : |((cs (t / 2)).val : ℝ)| ≤ 1 := by exact_mod_cast b
  have fc := hT.cos_fin _ f
  have rv := (angle_val hp hA (q := Quat.ofAxisAngleG sn cs v t) fc b).2
  have k := (acos_err hp hA fc b).1
  have s0 : 0 < Real.sin ((t.val : ℝ) / 2) := Real.sin_pos_of_pos_of_lt_pi (by linarith) (by linarith)
  have n := arccos_near (a := Real.arccos (cs (t / 2)).val) (b := (t.val : ℝ) / 2) (Real.arccos_nonneg _) (Real.arccos_le_pi _) (by linarith)
    (by linarith)
  rw [Real.cos_arccos (abs_le.1 b').1 (abs_le.1 b').2] at n
  have cc : |((cs (t / 2)).val : ℝ) - Real.cos ((t.val : ℝ) / 2)| ≤ 2.01 * P.u := by
    have k1 := abs_le.1 c; have k2 := abs_le.1 dc
    exact abs_le.2 ⟨by linarith, by linarith⟩
  have m := mul_le_mul Real.pi_lt_d4.le cc (abs_nonneg _) (by norm_num)
  rw [le_div_iff₀ s0, rv]
  push_cast
  show |2 * ((ac (cs (t / 2))).val : ℝ) - t.val| * _ ≤ _
  have tri : |2 * ((ac (cs (t / 2))).val : ℝ) - t.val| ≤ 2 * (6.3 * P.u) + 2 * |Real.arccos (cs (t / 2)).val - (t.val : ℝ) / 2| := by
    have e : 2 * ((ac (cs (t / 2))).val : ℝ) - t.val =
        2 * (((ac (cs (t / 2))).val : ℝ) - Real.arccos (cs (t / 2)).val) + 2 * (Real.arccos (cs (t / 2)).val - (t.val : ℝ) / 2) := by ring
    rw [e]
    refine (abs_add_le _ _).trans ?_
    rw [abs_mul, abs_mul, abs_two]
    linarith
  have m1 := mul_le_mul_of_nonneg_right tri s0.le
  have m2 := mul_le_mul_of_nonneg_left (Real.sin_le_one ((t.val : ℝ) / 2)) (by linarith : 0 ≤ 2 * (6.3 * (P.u : ℝ)))
  linarith

end quat

/-! ### Where angles are inaccurate -/

namespace FltAng

theorem mul_sub_comm {x y : Flt P.fmt} (hx : x.isFinite) (hy : y.isFinite) (hb : |P.fl (x.val * y.val)| < P.bound) : x * y - y * x = 0 := by
  have h1 : (x * y).isFinite := by rw [Flt.mul_eq hx hy]; exact Flt.round_finite.2 hb
  have e : y * x = x * y := by rw [Flt.mul_eq hx hy, Flt.mul_eq hy hx, mul_comm]
  rw [e, Flt.sub_eq h1 h1, sub_self]
  exact Flt.round_of_rep P.fmt.rep_zero

end FltAng

open FltAng in
/-- C131: in `double`, the angle between a vector and itself need not be 0: for the normalized vector (2, 3, 6), whose length is exactly 7, the
result is greater than `1e-8`, however accurate the arc cosine is, although every component is correctly rounded. -/
theorem C131_equal_fails {s ac : Flt binary64.fmt → Flt binary64.fmt} (hs : FaithfulSqrt binary64 s) (hA : AccurateAcos binary64 ac)
    (up : Vec (Flt binary64.fmt) 3) (hup : ∀ i, (up i).isFinite) :
    let v := normalizeG s (![2, 3, 6] : Vec (Flt binary64.fmt) 3)
    (∀ i, (v i).isFinite) ∧ (∀ i, |(v i).val - (![2 / 7, 3 / 7, 6 / 7] : Vec ℚ 3) i| ≤ binary64.u) ∧
    (measureAngleG ac binary64.twoPi v v up).isFinite ∧ 1 / 10 ^ 8 < (measureAngleG ac binary64.twoPi v v up).val := by
  intro v
  have n0 := FltQt.int64 2 (by norm_num)
  have n1 := FltQt.int64 3 (by norm_num)
  have n2 := FltQt.int64 6 (by norm_num)
  have q0 := is_mul (c := 4) n0 n0 (by fl_num (-50) (4503599627370496)) (lt_bound64 (by norm_num [abs_le]))
  have q1 := is_mul (c := 9) n1 n1 (by fl_num (-49) (5066549580791808)) (lt_bound64 (by norm_num [abs_le]))
  have q2 := is_mul (c := 36) n2 n2 (by fl_num (-47) (5066549580791808)) (lt_bound64 (by norm_num [abs_le]))
  have q3 := is_add (c := 13) q0 q1 (by fl_num (-49) (7318349394477056)) (lt_bound64 (by norm_num [abs_le]))
  have q4 := is_add (c := 49) q3 q2 (by fl_num (-47) (6896136929411072)) (lt_bound64 (by norm_num [abs_le]))
  have len : squaredLength (![2, 3, 6] : Vec (Flt binary64.fmt) 3) = Flt.round ((2 : ℤ) : ℚ) * Flt.round ((2 : ℤ) : ℚ)
      + Flt.round ((3 : ℤ) : ℚ) * Flt.round ((3 : ℤ) : ℚ) + Flt.round ((6 : ℤ) : ℚ) * Flt.round ((6 : ℤ) : ℚ) := FltQt.dot3 _ _
  have i7 := FltQt.int64 7 (by norm_num)
  have r7 : binary64.fmt.rep 7 := by
    have := Flt.rep_val (Flt.round ((7 : ℤ) : ℚ) : Flt binary64.fmt)
    rw [i7.2] at this
    exact_mod_cast this
  have h7 : (s (squaredLength (![2, 3, 6] : Vec (Flt binary64.fmt) 3))).isFinite ∧
      (s (squaredLength (![2, 3, 6] : Vec (Flt binary64.fmt) 3))).val = 7 := by
    rw [len, FltQuad.sqrt_exact hs q4.1 r7 (by norm_num) (by rw [q4.2]; norm_num)]
    exact ⟨trivial, rfl⟩
  have v0 := is_div (c := (2573485501354569 / 2 ^ 53)) n0 h7 (by norm_num) (by fl_num (-54) (5146971002709138)) (lt_bound64 (by norm_num [abs_le]))
  have v1 := is_div (c := (7720456504063707 / 2 ^ 54)) n1 h7 (by norm_num) (by fl_num (-54) (7720456504063707)) (lt_bound64 (by norm_num [abs_le]))
  have v2 := is_div (c := (7720456504063707 / 2 ^ 53)) n2 h7 (by norm_num) (by fl_num (-53) (7720456504063707)) (lt_bound64 (by norm_num [abs_le]))
  have m0 := is_mul (c := (5882252574524729 / 2 ^ 56)) v0 v0 (by fl_num (-56) (5882252574524729)) (lt_bound64 (by norm_num [abs_le]))
  have m1 := is_mul (c := (206797942073135 / 2 ^ 50)) v1 v1 (by fl_num (-55) (6617534146340320)) (lt_bound64 (by norm_num [abs_le]))
  have m2 := is_mul (c := (206797942073135 / 2 ^ 48)) v2 v2 (by fl_num (-53) (6617534146340320)) (lt_bound64 (by norm_num [abs_le]))
  have a1 := is_add (c := (2389665108400671 / 2 ^ 53)) m0 m1 (by fl_num (-54) (4779330216801342)) (lt_bound64 (by norm_num [abs_le]))
  have a2 := is_add (c := (9007199254740991 / 2 ^ 53)) a1 m2 (by fl_num (-53) (9007199254740991)) (lt_bound64 (by norm_num [abs_le]))
  have hu : binary64.u = 1 / 2 ^ 53 := by norm_num [BinPar.u, binary64]
  have e0 : (v 0).isFinite ∧ (v 0).val = 2573485501354569 / 2 ^ 53 := v0
  have e1 : (v 1).isFinite ∧ (v 1).val = 7720456504063707 / 2 ^ 54 := v1
  have e2 : (v 2).isFinite ∧ (v 2).val = 7720456504063707 / 2 ^ 53 := v2
  have fv : ∀ i, (v i).isFinite := fun i => by
    fin_cases i
    · exact e0.1
    · exact e1.1
    · exact e2.1
  have b : ∀ i, |(v i).val| ≤ 1 := fun i => by
    fin_cases i
    · show |(v 0).val| ≤ 1
      rw [e0.2]; norm_num [abs_le]
    · show |(v 1).val| ≤ 1
      rw [e1.2]; norm_num [abs_le]
    · show |(v 2).val| ≤ 1
      rw [e2.2]; norm_num [abs_le]
  have hd : (dot v v).isFinite ∧ (dot v v).val = 9007199254740991 / 2 ^ 53 := by
    rw [FltQt.dot3]; exact a2
  have mc : ∀ i j, v i * v j - v j * v i = 0 := fun i j => mul_sub_comm (fv i) (fv j) (by
    refine fl_lt_bound ?_
    have : |(v i).val * (v j).val| ≤ 1 := by rw [abs_mul]; exact mul_le_one₀ (b i) (abs_nonneg _) (b j)
    have h2 : (4 : ℚ) < binary64.bound := by
      have := lt_bound64 (q := 4) (by norm_num [abs_le])
      rwa [abs_of_pos (by norm_num)] at this
    linarith)
  have hc : dot (cross v v) up = 0 := by
    rw [FltQt.dot3]
    show (v 1 * v 2 - v 2 * v 1) * up 0 + (v 2 * v 0 - v 0 * v 2) * up 1 + (v 0 * v 1 - v 1 * v 0) * up 2 = 0
    rw [mc, mc, mc, Flt.zero_mul_fin (hup 0), Flt.zero_mul_fin (hup 1), Flt.zero_mul_fin (hup 2), Flt.zero_add', Flt.zero_add']
  obtain ⟨c1, c2⟩ := clamp_fin hd.1
  have c3 : (clamp (dot v v) (-1) 1).val = 9007199254740991 / 2 ^ 53 := by
    rw [c2, hd.2]; norm_num
  have c4 : |(clamp (dot v v) (-1) 1).val| ≤ 1 := by rw [c3]; norm_num [abs_le]
  have hM : measureAngleG ac binary64.twoPi v v up = ac (clamp (dot v v) (-1) 1) := by
    have : measureAngleG ac binary64.twoPi v v up = if Cmp.le 0 (dot (cross v v) up) = true then ac (clamp (dot v v) (-1) 1)
      else binary64.twoPi - ac (clamp (dot v v) (-1) 1) := rfl
    rw [this, hc, Flt.lt_asymm_le Flt.zero_finite Flt.zero_finite]
    simp
  refine ⟨fv, fun i => ?_, ?_, ?_⟩
  · fin_cases i
    · show |(v 0).val - 2 / 7| ≤ _
      rw [e0.2, hu]; norm_num [abs_le]
    · show |(v 1).val - 3 / 7| ≤ _
      rw [e1.2, hu]; norm_num [abs_le]
    · show |(v 2).val - 6 / 7| ≤ _
      rw [e2.2, hu]; norm_num [abs_le]
  · rw [hM]; exact hA.fin _ c1 c4
  · rw [hM]
    have e := hA.err _ c1 c4
    have t0 := Real.arccos_nonneg ((clamp (dot v v) (-1) 1).val : ℝ)
    have hcos := Real.cos_arccos (x := ((clamp (dot v v) (-1) 1).val : ℝ)) (by rw [c3]; norm_num) (by rw [c3]; norm_num)
    set T := Real.arccos ((clamp (dot v v) (-1) 1).val : ℝ) with hT
    have l := Real.one_sub_sq_div_two_le_cos (x := T)
    rw [hcos, c3] at l
    have hT2 : 1.4 / 10 ^ 8 ≤ T := by
      by_contra hc
      push Not at hc
      have := mul_self_lt_mul_self t0 hc
      norm_num at this l
      nlinarith
    have huR : (binary64.u : ℝ) = 1 / 2 ^ 53 := by rw [hu]; norm_num
    have heta : (binary64.eta : ℝ) ≤ 1 / 10 ^ 20 := by
      have : binary64.eta ≤ 2 ^ (-80 : ℤ) := by
        unfold BinPar.eta
        exact zpow_le_zpow_right₀ (by norm_num) (by decide)
      have : binary64.eta ≤ 1 / 10 ^ 20 := this.trans (by norm_num)
      have := (Rat.cast_le (K := ℝ)).2 this
      push_cast at this
      exact this
    have k := (abs_le.1 e).1
    have : (1 : ℝ) / 10 ^ 8 < (ac (clamp (dot v v) (-1) 1)).val := by
      rw [huR] at k
      norm_num at k heta hT2 ⊢
      linarith
    have h2 : (((1 : ℚ) / 10 ^ 8 : ℚ) : ℝ) < (ac (clamp (dot v v) (-1) 1)).val := by push_cast; exact this
    exact_mod_cast h2

/-- C131: in `double`, the angle of the product of a unit quaternion and its conjugate, which is the identity, can be NaN: for (0.8, (0.2, 0.4, 0.4)),
every component of which is correctly rounded, the real part of the product is greater than 1, and `angle()` does not limit it. -/
theorem C131_angle_nan_fails {ac : Flt binary64.fmt → Flt binary64.fmt} (hA : AccurateAcos binary64 ac) :
    let q : Quat (Flt binary64.fmt) := ⟨Flt.round (4 / 5), ![Flt.round (1 / 5), Flt.round (2 / 5), Flt.round (2 / 5)]⟩
    QFinite q ∧ (4 / 5 : ℚ) ^ 2 + ((1 / 5) ^ 2 + (2 / 5) ^ 2 + (2 / 5) ^ 2) = 1 ∧
    (q.mul q.conjugate).r.isFinite ∧ (q.mul q.conjugate).r.val = 1 + 1 / 2 ^ 52 ∧ (q.mul q.conjugate).angleG ac = Flt.nan := by
  intro q
  have r : (Flt.round (4 / 5) : Flt binary64.fmt).isFinite ∧ (Flt.round (4 / 5) : Flt binary64.fmt).val = (3602879701896397 / 2 ^ 52) :=
    is_round (by fl_num (-53) (7205759403792794)) (lt_bound64 (by norm_num [abs_le]))
  have x : (Flt.round (1 / 5) : Flt binary64.fmt).isFinite ∧ (Flt.round (1 / 5) : Flt binary64.fmt).val = (3602879701896397 / 2 ^ 54) :=
    is_round (by fl_num (-55) (7205759403792794)) (lt_bound64 (by norm_num [abs_le]))
  have y : (Flt.round (2 / 5) : Flt binary64.fmt).isFinite ∧ (Flt.round (2 / 5) : Flt binary64.fmt).val = (3602879701896397 / 2 ^ 53) :=
    is_round (by fl_num (-54) (7205759403792794)) (lt_bound64 (by norm_num [abs_le]))
  have nx : (-(Flt.round (1 / 5) : Flt binary64.fmt)).isFinite ∧ (-(Flt.round (1 / 5) : Flt binary64.fmt)).val = -(3602879701896397 / 2 ^ 54) :=
    ⟨Flt.neg_finite.2 x.1, by rw [Flt.neg_val, x.2]⟩
  have ny : (-(Flt.round (2 / 5) : Flt binary64.fmt)).isFinite ∧ (-(Flt.round (2 / 5) : Flt binary64.fmt)).val = -(3602879701896397 / 2 ^ 53) :=
    ⟨Flt.neg_finite.2 y.1, by rw [Flt.neg_val, y.2]⟩
  have rr := is_mul (c := (1441151880758559 / 2 ^ 51)) r r (by fl_num (-53) (5764607523034236)) (lt_bound64 (by norm_num [abs_le]))
  have xx := is_mul (c := (-1441151880758559 / 2 ^ 55)) x nx (by fl_num (-57) (-5764607523034236)) (lt_bound64 (by norm_num [abs_le]))
  have yy := is_mul (c := (-1441151880758559 / 2 ^ 53)) y ny (by fl_num (-55) (-5764607523034236)) (lt_bound64 (by norm_num [abs_le]))
  have b1 := is_add (c := (-7205759403792795 / 2 ^ 55)) xx yy (by fl_num (-55) (-7205759403792795)) (lt_bound64 (by norm_num [abs_le]))
  have b2 := is_add (c := (-1621295865853379 / 2 ^ 52)) b1 yy (by fl_tie (-54) (-6485183463413516)) (lt_bound64 (by norm_num [abs_le]))
  have b3 := is_sub (c := (4503599627370497 / 2 ^ 52)) rr b2 (by fl_num (-52) (4503599627370497)) (lt_bound64 (by norm_num [abs_le]))
  have hr : (q.mul q.conjugate).r.isFinite ∧ (q.mul q.conjugate).r.val = 4503599627370497 / 2 ^ 52 := by
    show (Flt.round (4 / 5) * Flt.round (4 / 5) - dot q.v q.conjugate.v).isFinite ∧
      (Flt.round (4 / 5) * Flt.round (4 / 5) - dot q.v q.conjugate.v).val = 4503599627370497 / 2 ^ 52
    rw [FltQt.dot3]
    exact b3
  refine ⟨⟨r.1, fun i => ?_⟩, by norm_num, hr.1, by rw [hr.2]; norm_num, ?_⟩
  · fin_cases i
    · exact x.1
    · exact y.1
    · exact y.1
  · unfold Quat.angleG
    rw [hA.nan _ hr.1 (by rw [hr.2]; norm_num [abs_of_pos])]
    obtain ⟨h, e⟩ := Flt.eq_fin (Flt.two_eq binary64).1
    rw [e]
    rfl

/-! ### Hypotheses that hold -/

open FltAng FltRot in
/-- The hypotheses of the accuracy theorems hold: there are accurate functions, and for the axis (1, 0, 0), the vector (0, 1, 0) and the direction
(0, 0, 1) the exact angle is a quarter turn. -/
example : (∃ ac : Flt binary64.fmt → Flt binary64.fmt, AccurateAcos binary64 ac) ∧
    (∃ sn cs : Flt binary64.fmt → Flt binary64.fmt, AccurateTrig binary64 sn cs) ∧
    NearUnit (![1, 0, 0] : Vec (Flt binary64.fmt) 3) ∧
    (30 * binary64.u : ℝ) + 18.3 * 0 < |Real.sin (measureAngle ![0, 1, 0] ![1, 0, 0] ![0, 0, 1])| ∧
    vnorm2 (vval (![1, 0, 0] : Vec (Flt binary64.fmt) 3)) ≤ 1 ^ 2 ∧ (300 * 1 + 300 : ℚ) < binary64.bound := by
  refine ⟨exists_acos (by decide), ?_, ⟨fun i => by fin_cases i <;> trivial, fun i => ?_⟩, ?_, ?_, ?_⟩
  · obtain ⟨sn, cs, h, -⟩ := exists_accurate (P := binary64) (by decide)
    exact ⟨sn, cs, h⟩
  · fin_cases i
    · show |(((1 : Flt binary64.fmt).val : ℚ) : ℝ)| ≤ 1.02
      rw [Flt.one_val]; norm_num
    · show |(((0 : Flt binary64.fmt).val : ℚ) : ℝ)| ≤ 1.02
      rw [Flt.zero_val]; norm_num
    · show |(((0 : Flt binary64.fmt).val : ℚ) : ℝ)| ≤ 1.02
      rw [Flt.zero_val]; norm_num
  · rw [(exact_angle (v := ![0, 1, 0]) (a := ![1, 0, 0]) (w := ![0, 0, 1]) (by simp [vm.dot3]) (by simp [vm.dot3]) (by simp [vm.dot3])
      (by simp [vm.dot3]) (by simp [vm.dot3])).2.2.2]
    have hu : (binary64.u : ℝ) = 1 / 2 ^ 53 := by norm_num [BinPar.u, binary64]
    rw [hu]
    simp [vm.dot3, cross_0, cross_1, cross_2]
    norm_num
  · show (1 : Flt binary64.fmt).val ^ 2 + (0 : Flt binary64.fmt).val ^ 2 + (0 : Flt binary64.fmt).val ^ 2 ≤ 1 ^ 2
    rw [Flt.one_val, Flt.zero_val]; norm_num
  · have := lt_bound64 (q := 600) (by norm_num [abs_le])
    rw [abs_of_pos (by norm_num)] at this
    norm_num
    exact this

end vm
