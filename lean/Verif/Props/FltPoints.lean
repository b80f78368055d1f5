import Verif.Lemmas.FltPoints
import Verif.Props.PointMaps

/-!
# C143: `points_transformation_matrix` in IEEE arithmetic

Whatever the condition of the linear system is: if the matrix that is returned has finite entries, then it maps the given points
to the given images, up to rounding errors that grow with the entries of the matrix.
-/

set_option linter.unusedSectionVars false
set_option linter.unusedSimpArgs false

namespace vm
open BinPar FltPts
variable {P : BinPar}

namespace FltPts

theorem aff_err {a0 a1 a2 b0 b1 b2 t : Flt P.fmt} (h : (a0 * b0 + a1 * b1 + a2 * b2 + t).isFinite) :
    |(a0 * b0 + a1 * b1 + a2 * b2 + t).val - (a0.val * b0.val + a1.val * b1.val + a2.val * b2.val + t.val)| ≤
      dotErr P 4 (|a0.val * b0.val| + |a1.val * b1.val| + |a2.val * b2.val| + |t.val|) := by
  have e : dot ![a0, a1, a2, t] ![b0, b1, b2, 1] = a0 * b0 + a1 * b1 + a2 * b2 + t := by
    simp only [dot, Fin.foldl_succ_last, Fin.foldl_zero]
    show 0 + a0 * b0 + a1 * b1 + a2 * b2 + t * 1 = _
    rw [Flt.zero_add', Flt.mul_one']
  have := dot_err ![a0, a1, a2, t] ![b0, b1, b2, 1] (by rw [e]; exact h)
  rw [e] at this
  have e1 : exactDot ![a0, a1, a2, t] ![b0, b1, b2, (1 : Flt P.fmt)] =
      a0.val * b0.val + a1.val * b1.val + a2.val * b2.val + t.val := by
    rw [exactDot, Fin.sum_univ_four]
    show a0.val * b0.val + a1.val * b1.val + a2.val * b2.val + t.val * 1 = _
    ring
  have e2 : absDot ![a0, a1, a2, t] ![b0, b1, b2, (1 : Flt P.fmt)] =
      |a0.val * b0.val| + |a1.val * b1.val| + |a2.val * b2.val| + |t.val| := by
    rw [absDot, Fin.sum_univ_four]
    show |a0.val * b0.val| + |a1.val * b1.val| + |a2.val * b2.val| + |t.val * 1| = _
    rw [mul_one]
  rwa [e1, e2] at this

theorem u24 (hp : 24 ≤ P.p) : P.u ≤ 1 / 2 ^ 24 := by
  unfold BinPar.u
  calc (2 : ℚ) ^ (-(P.p : ℤ)) ≤ 2 ^ (-24 : ℤ) := zpow_le_zpow_right₀ (by norm_num) (by omega)
    _ = 1 / 2 ^ 24 := by norm_num

theorem eta_sq (P : BinPar) : P.eta ≤ P.u ^ 2 / 2 := by
  unfold BinPar.eta BinPar.u
  have := P.hmin
  calc (2 : ℚ) ^ (P.qmin - 1) ≤ 2 ^ (-(P.p : ℤ) + -(P.p : ℤ) - 1) := zpow_le_zpow_right₀ (by norm_num) (by omega)
    _ = _ := by rw [zpow_sub₀ (by norm_num : (2 : ℚ) ≠ 0), zpow_add₀ (by norm_num : (2 : ℚ) ≠ 0), zpow_one, sq]

theorem dotErr4_le (hp : 24 ≤ P.p) {A : ℚ} (hA : 0 ≤ A) : dotErr P 4 A ≤ 5 * P.u * A + P.u := by
  have hu := u24 hp
  have hu0 := P.u_pos
  have he := eta_sq P
  have he0 := P.eta_pos
  have h1 := pow_le_quad hu0.le 4 (by push_cast; linarith)
  push_cast at h1
  have h2 : (1 + P.u) ^ 4 - 1 ≤ 5 * P.u := by nlinarith
  have h3 : (1 + P.u) ^ 4 ≤ 2 := by linarith
  unfold dotErr
  push_cast
  have k1 := mul_le_mul_of_nonneg_right h2 hA
  have k2 : 4 * (1 + P.u) ^ 4 * P.eta ≤ 4 * 2 * (P.u ^ 2 / 2) := mul_le_mul (by linarith) he he0.le (by norm_num)
  have k3 : P.u ^ 2 ≤ 1 / 2 ^ 24 * P.u := by rw [sq]; exact mul_le_mul_of_nonneg_right hu hu0.le
  linarith

/-- The computed difference of two coordinates. -/
theorem diff {a b : Flt P.fmt} {R : ℚ} (hR : P.Rep R) (room : 2 ^ 9 * R < P.bound) (ha : a.isFinite) (hb : b.isFinite)
    (ha' : |a.val| ≤ R) (hb' : |b.val| ≤ R) :
    (a - b).isFinite ∧ |(a - b).val| ≤ 2 * R ∧ |(a - b).val - (a.val - b.val)| ≤ P.u * |a.val - b.val| := by
  have h2 := hR.double
  have hR0 : 0 ≤ R := (abs_nonneg _).trans ha'
  have hb2 : |2 * R| < P.bound := by rw [abs_of_nonneg (by linarith)]; linarith
  have hab : |a.val - b.val| ≤ 2 * R := (abs_sub _ _).trans (by linarith)
  obtain ⟨h3, h4⟩ := abs_le.1 hab
  obtain ⟨f1, f2, f3, f4⟩ := Flt.round_between (P := P) (q := a.val - b.val) (a := -(2 * R)) (b := 2 * R)
    ⟨h2.neg, by rwa [abs_neg]⟩ ⟨h2, hb2⟩ h3 h4
  have e := Flt.sub_eq ha hb
  rw [e]
  refine ⟨f1, ?_, ?_⟩
  · rw [f2, abs_le]; exact ⟨f3, f4⟩
  · rw [f2]; exact fl_sub_err_u (Flt.rep_val a).1 (Flt.rep_val b).1

end FltPts

/-- In exact arithmetic these functions are the ones that C53 and C54 are about. -/
theorem C143_model {K : Type*} [Field K] [LinearOrder K] (i0 i1 i2 i3 o0 o1 o2 o3 : Vec K 3) :
    pointsTransformationMatrix4G i0 i1 i2 i3 o0 o1 o2 o3 = pointsTransformationMatrix4 i0 i1 i2 i3 o0 o1 o2 o3 := rfl

/-- The four points. -/
structure FourPoints (P : BinPar) (R : ℚ) (p : Fin 4 → Vec (Flt P.fmt) 3) : Prop where
  finite : ∀ k c, (p k c).isFinite
  le : ∀ k c, |(p k c).val| ≤ R

namespace FltPts

/-- The size of the linear part: the sum of the magnitudes of its entries. -/
def size (m : Mat (Flt P.fmt) 4 4) : ℚ := ∑ c : Fin 3, ∑ r : Fin 3, |(m c.castSucc r.castSucc).val|

theorem structure_of {i o : Fin 4 → Vec (Flt P.fmt) 3} {R : ℚ} (hi : FourPoints P R i) (ho : FourPoints P R o) {m : Mat (Flt P.fmt) 4 4}
    (h : pointsTransformationMatrix4G (i 0) (i 1) (i 2) (i 3) (o 0) (o 1) (o 2) (o 3) = some m) (hm : ∀ c r, (m c r).isFinite) :
    ∃ X : Vec (Flt P.fmt) 9,
      lupSolve (pointsSystem (i 1 - i 0) (i 2 - i 0) (i 3 - i 0)) (rhs fun k => o k.succ - o 0) = (true, X) ∧
      (∀ c r, (lin X c r).isFinite) ∧
      m = FltBM.aff (lin X) (fun r => lin X 0 r * -(i 0 0) + lin X 1 r * -(i 0 1) + lin X 2 r * -(i 0 2) + o 0 r) := by
  unfold pointsTransformationMatrix4G at h
  simp only at h
  have e : (![(o 1 - o 0) 0, (o 1 - o 0) 1, (o 1 - o 0) 2, (o 2 - o 0) 0, (o 2 - o 0) 1, (o 2 - o 0) 2,
      (o 3 - o 0) 0, (o 3 - o 0) 1, (o 3 - o 0) 2] : Vec (Flt P.fmt) 9) = rhs fun k => o k.succ - o 0 := rfl
  rw [e] at h
  rcases hs : lupSolve (pointsSystem (i 1 - i 0) (i 2 - i 0) (i 3 - i 0)) (rhs fun k => o k.succ - o 0) with ⟨b, X⟩
  rw [hs] at h
  cases b
  · simp at h
  simp only [if_true, Option.some.injEq] at h
  subst h
  have hX := lin_finite hm
  refine ⟨X, rfl, hX, ?_⟩
  rw [result_eq, FltBM.conj_aff _ _ (-i 0) hX (ho.finite 0) (fun c => Flt.neg_fin (hi.finite 0 c))]
  rfl

theorem size_aff (A : Fin 3 → Fin 3 → Flt P.fmt) (t : Vec (Flt P.fmt) 3) :
    size (FltBM.aff A t) = ∑ c : Fin 3, ∑ r : Fin 3, |(A c r).val| := by
  unfold size
  refine Finset.sum_congr rfl fun c _ => Finset.sum_congr rfl fun r _ => ?_
  fin_cases c <;> fin_cases r <;> rfl

theorem row_le (A : Fin 3 → Fin 3 → Flt P.fmt) (r : Fin 3) :
    |(A 0 r).val| + |(A 1 r).val| + |(A 2 r).val| ≤ ∑ c : Fin 3, ∑ r : Fin 3, |(A c r).val| := by
  rw [Finset.sum_comm]
  have := Finset.single_le_sum (f := fun r => ∑ c : Fin 3, |(A c r).val|)
    (fun r _ => Finset.sum_nonneg fun c _ => abs_nonneg _) (Finset.mem_univ r)
  rw [Fin.sum_univ_three] at this
  exact this

theorem sum_X (X : Vec (Flt P.fmt) 9) : ∑ j, |(X j).val| = ∑ c : Fin 3, ∑ r : Fin 3, |(lin X c r).val| := by
  rw [nineQ]
  simp only [Fin.sum_univ_three]
  show _ = |(X 0).val| + |(X 3).val| + |(X 6).val| + (|(X 1).val| + |(X 4).val| + |(X 7).val|) +
    (|(X 2).val| + |(X 5).val| + |(X 8).val|)
  ring

/-- All that is needed about the result. -/
theorem summary (hp : 24 ≤ P.p) {i o : Fin 4 → Vec (Flt P.fmt) 3} {R : ℚ} (hR : P.Rep R) (hR1 : 1 ≤ R) (room : 2 ^ 9 * R < P.bound)
    (hi : FourPoints P R i) (ho : FourPoints P R o) {m : Mat (Flt P.fmt) 4 4}
    (h : pointsTransformationMatrix4G (i 0) (i 1) (i 2) (i 3) (o 0) (o 1) (o 2) (o 3) = some m) (hm : ∀ c r, (m c r).isFinite) :
    ∃ (A : Fin 3 → Fin 3 → Flt P.fmt) (t : Vec (Flt P.fmt) 3), m = FltBM.aff A t ∧ (∀ r, |(t r).val| ≤ 2 * R * (1 + size m)) ∧
      ∀ k r, |(A 0 r).val * (i k 0).val + (A 1 r).val * (i k 1).val + (A 2 r).val * (i k 2).val + (t r).val - (o k r).val| ≤
        129110 * P.u * R * (1 + size m) := by
  obtain ⟨X, hs, hX, e⟩ := structure_of hi ho h hm
  set A := lin X with hA
  set t : Vec (Flt P.fmt) 3 := fun r => A 0 r * -(i 0 0) + A 1 r * -(i 0 1) + A 2 r * -(i 0 2) + o 0 r with ht
  have hsz : size m = ∑ c : Fin 3, ∑ r : Fin 3, |(A c r).val| := by rw [e, size_aff]
  set N := size m with hN
  have hN0 : 0 ≤ N := by rw [hsz]; exact Finset.sum_nonneg fun c _ => Finset.sum_nonneg fun r _ => abs_nonneg _
  have hrow : ∀ r, |(A 0 r).val| + |(A 1 r).val| + |(A 2 r).val| ≤ N := fun r => by rw [hsz]; exact row_le A r
  have hu := u24 hp
  have hu0 := P.u_pos
  have hRN : 0 ≤ R * N := by positivity
  have d := fun (p : Fin 4 → Vec (Flt P.fmt) 3) (hp : FourPoints P R p) (k : Fin 4) (c : Fin 3) =>
    diff hR room (hp.finite k c) (hp.finite 0 c) (hp.le k c) (hp.le 0 c)
  -- the translation
  have tf : ∀ r, (t r).isFinite := by
    intro r
    have := hm 3 r.castSucc
    rw [e] at this
    fin_cases r <;> exact this
  have tb : ∀ r, |(A 0 r).val * (-(i 0 0)).val| + |(A 1 r).val * (-(i 0 1)).val| + |(A 2 r).val * (-(i 0 2)).val| +
      |(o 0 r).val| ≤ R * N + R := by
    intro r
    have hb : ∀ c : Fin 3, |(A c r).val * (-(i 0 c)).val| ≤ |(A c r).val| * R := by
      intro c
      rw [abs_mul, Flt.neg_val (i 0 c), abs_neg]
      exact mul_le_mul_of_nonneg_left (hi.le 0 c) (abs_nonneg _)
    have h3 := mul_le_mul_of_nonneg_right (hrow r) (by linarith : (0 : ℚ) ≤ R)
    linarith [hb 0, hb 1, hb 2, ho.le 0 r]
  have te : ∀ r, |(t r).val - ((o 0 r).val - (A 0 r).val * (i 0 0).val - (A 1 r).val * (i 0 1).val - (A 2 r).val * (i 0 2).val)| ≤
      5 * P.u * (R * N + R) + P.u := by
    intro r
    have h1 := aff_err (tf r)
    have h2 := h1.trans (dotErr4_le hp (by positivity))
    rw [Flt.neg_val (i 0 0), Flt.neg_val (i 0 1), Flt.neg_val (i 0 2)] at h2
    have h3 := tb r
    rw [Flt.neg_val (i 0 0), Flt.neg_val (i 0 1), Flt.neg_val (i 0 2)] at h3
    have h4 := mul_le_mul_of_nonneg_left h3 (by linarith : (0 : ℚ) ≤ 5 * P.u)
    refine le_trans (le_of_eq ?_) (h2.trans (by linarith))
    congr 1
    ring
  refine ⟨A, t, e, ?_, ?_⟩
  · intro r
    have h1 := te r
    have h2 : |(o 0 r).val - (A 0 r).val * (i 0 0).val - (A 1 r).val * (i 0 1).val - (A 2 r).val * (i 0 2).val| ≤ R * N + R := by
      have h3 := tb r
      rw [Flt.neg_val (i 0 0), Flt.neg_val (i 0 1), Flt.neg_val (i 0 2)] at h3
      simp only [mul_neg, abs_neg] at h3
      refine (abs_sub _ _).trans (le_trans (add_le_add_left ((abs_sub _ _).trans (add_le_add_left (abs_sub _ _) _)) _) ?_)
      linarith
    have h3 := abs_sub_abs_le_abs_sub (t r).val
      ((o 0 r).val - (A 0 r).val * (i 0 0).val - (A 1 r).val * (i 0 1).val - (A 2 r).val * (i 0 2).val)
    have h4 : 5 * P.u * (R * N + R) ≤ 1 / 2 * (R * N + R) := mul_le_mul_of_nonneg_right (by linarith) (by linarith)
    linarith
  -- the system
  have hB : BoundedMat (2 * R) (pointsSystem (i 1 - i 0) (i 2 - i 0) (i 3 - i 0)) := by
    have hent := system_entry (fun k : Fin 3 => i k.succ - i 0)
    refine ⟨hR.double, by norm_num only; linarith, fun c r => ?_, fun c r => ?_⟩
    · rw [show pointsSystem (i 1 - i 0) (i 2 - i 0) (i 3 - i 0) c r = _ from hent c r]
      split_ifs
      · exact (d i hi _ _).1
      · exact Flt.zero_finite
    · rw [show pointsSystem (i 1 - i 0) (i 2 - i 0) (i 3 - i 0) c r = _ from hent c r]
      split_ifs
      · exact (d i hi _ _).2.1
      · rw [Flt.zero_val, abs_zero]; linarith
  have hres := fun r => C112_solve_residual P _ hB _ X hs (X_finite hX) r
  rw [sum_X, ← hsz] at hres
  have hrows := rows (v := fun k => i k.succ - i 0) (w := fun k => o k.succ - o 0) (X := X) hres
  have hE := lupBound_le hp hR1 hN0
  have hE0 : 0 ≤ lupBound P 9 (2 * R) N := (abs_nonneg _).trans (hres 0)
  -- the points
  intro k r
  have key : |(A 0 r).val * (i k 0).val + (A 1 r).val * (i k 1).val + (A 2 r).val * (i k 2).val + (t r).val - (o k r).val| ≤
      lupBound P 9 (2 * R) N + P.u * (|(A 0 r).val| * |(i k 0).val - (i 0 0).val| + |(A 1 r).val| * |(i k 1).val - (i 0 1).val| +
        |(A 2 r).val| * |(i k 2).val - (i 0 2).val| + |(o k r).val - (o 0 r).val|) + (5 * P.u * (R * N + R) + P.u) := by
    rcases Fin.eq_zero_or_eq_succ k with rfl | ⟨j, rfl⟩
    · have h1 := te r
      simp only [sub_self, abs_zero, mul_zero, add_zero]
      refine le_trans (le_of_eq ?_) (h1.trans (by linarith))
      congr 1; ring
    · exact image_err (hrows j r) (d i hi _ _).2.2 (d i hi _ _).2.2 (d i hi _ _).2.2 (d o ho _ _).2.2 (te r)
  refine key.trans ?_
  have hd : ∀ (p : Fin 4 → Vec (Flt P.fmt) 3) (_ : FourPoints P R p) (c : Fin 3), |(p k c).val - (p 0 c).val| ≤ 2 * R := by
    intro p hp c
    exact (abs_sub _ _).trans (by linarith [hp.le k c, hp.le 0 c])
  have m0 := mul_le_mul_of_nonneg_left (hd i hi 0) (abs_nonneg (A 0 r).val)
  have m1 := mul_le_mul_of_nonneg_left (hd i hi 1) (abs_nonneg (A 1 r).val)
  have m2 := mul_le_mul_of_nonneg_left (hd i hi 2) (abs_nonneg (A 2 r).val)
  have m3 := hd o ho r
  have m4 := mul_le_mul_of_nonneg_right (hrow r) (by linarith : (0 : ℚ) ≤ 2 * R)
  have m5 : |(A 0 r).val| * |(i k 0).val - (i 0 0).val| + |(A 1 r).val| * |(i k 1).val - (i 0 1).val| +
        |(A 2 r).val| * |(i k 2).val - (i 0 2).val| + |(o k r).val - (o 0 r).val| ≤ 2 * (R * N + R) := by linarith
  have m6 := mul_le_mul_of_nonneg_left m5 hu0.le
  have m7 : P.u ≤ P.u * (R * N + R) := le_mul_of_one_le_right hu0.le (by linarith)
  have m8 : R * (1 + N) = R * N + R := by ring
  calc _ ≤ 129100 * P.u * R * (1 + N) + P.u * (2 * (R * N + R)) + (5 * P.u * (R * N + R) + P.u * (R * N + R)) := by linarith
    _ = 129108 * P.u * R * (1 + N) := by ring
    _ ≤ 129110 * P.u * R * (1 + N) := by
      have : 0 ≤ P.u * (R * (1 + N)) := by positivity
      linarith

end FltPts

/-- If `points_transformation_matrix` returns a matrix with finite entries for points with coordinates of magnitude at most `R`,
then its last row is exactly 0, 0, 0, 1 and it maps all four points to their images up to 131072 rounding units of `R` times one plus
the sum of the magnitudes of the entries of the linear part. -/
theorem C143_maps (hp : 24 ≤ P.p) {i o : Fin 4 → Vec (Flt P.fmt) 3} {R : ℚ} (hR : P.Rep R) (hR1 : 1 ≤ R) (room : 2 ^ 9 * R < P.bound)
    (hi : FourPoints P R i) (ho : FourPoints P R o) {m : Mat (Flt P.fmt) 4 4}
    (h : pointsTransformationMatrix4G (i 0) (i 1) (i 2) (i 3) (o 0) (o 1) (o 2) (o 3) = some m) (hm : ∀ c r, (m c r).isFinite) :
    (∀ c, m c 3 = if c = 3 then 1 else 0) ∧
    ∀ (k : Fin 4) (r : Fin 3), |(∑ c : Fin 3, (m c.castSucc r.castSucc).val * (i k c).val) + (m 3 r.castSucc).val - (o k r).val| ≤
      131072 * P.u * R * (1 + ∑ c : Fin 3, ∑ r : Fin 3, |(m c.castSucc r.castSucc).val|) := by
  obtain ⟨A, t, e, -, hk⟩ := summary hp hR hR1 room hi ho h hm
  have hN0 : 0 ≤ size m := Finset.sum_nonneg fun c _ => Finset.sum_nonneg fun r _ => abs_nonneg _
  refine ⟨fun c => by rw [e]; fin_cases c <;> rfl, fun k r => ?_⟩
  have h1 : 0 ≤ P.u * R * (1 + size m) := by have := P.u_pos; positivity
  have h2 : 129110 * P.u * R * (1 + size m) ≤ 131072 * P.u * R * (1 + size m) := by linarith
  refine le_trans (le_of_eq ?_) ((hk k r).trans h2)
  rw [Fin.sum_univ_three, e]
  fin_cases r <;> rfl

/-- The same holds for the points as the matrix moves them in floating point arithmetic. -/
theorem C143_applied (hp : 24 ≤ P.p) {i o : Fin 4 → Vec (Flt P.fmt) 3} {R : ℚ} (hR : P.Rep R) (hR1 : 1 ≤ R) (room : 2 ^ 9 * R < P.bound)
    (hi : FourPoints P R i) (ho : FourPoints P R o) {m : Mat (Flt P.fmt) 4 4}
    (h : pointsTransformationMatrix4G (i 0) (i 1) (i 2) (i 3) (o 0) (o 1) (o 2) (o 3) = some m) (hm : ∀ c r, (m c r).isFinite)
    (k : Fin 4) (r : Fin 3) (hf : (mmulPoint m (i k) r).isFinite) :
    |(mmulPoint m (i k) r).val - (o k r).val| ≤
      131072 * P.u * R * (1 + ∑ c : Fin 3, ∑ r : Fin 3, |(m c.castSucc r.castSucc).val|) := by
  obtain ⟨A, t, e, ht, hk⟩ := summary hp hR hR1 room hi ho h hm
  have hN0 : 0 ≤ size m := Finset.sum_nonneg fun c _ => Finset.sum_nonneg fun r _ => abs_nonneg _
  have hu0 := P.u_pos
  have hrow : |(A 0 r).val| + |(A 1 r).val| + |(A 2 r).val| ≤ size m := by rw [e, size_aff]; exact row_le A r
  have e1 : mmulPoint m (i k) r = A 0 r * i k 0 + A 1 r * i k 1 + A 2 r * i k 2 + t r := by
    rw [e]; exact FltBM.aff_point A t (i k) (hi.finite k) r
  rw [e1] at hf ⊢
  have hb : ∀ c : Fin 3, |(A c r).val * (i k c).val| ≤ |(A c r).val| * R := by
    intro c
    rw [abs_mul]
    exact mul_le_mul_of_nonneg_left (hi.le k c) (abs_nonneg _)
  have h3 := mul_le_mul_of_nonneg_right hrow (by linarith : (0 : ℚ) ≤ R)
  have hs : |(A 0 r).val * (i k 0).val| + |(A 1 r).val * (i k 1).val| + |(A 2 r).val * (i k 2).val| + |(t r).val| ≤
      3 * (R * (1 + size m)) := by linarith [hb 0, hb 1, hb 2, ht r]
  have h1 := (aff_err hf).trans (dotErr4_le hp (by positivity))
  have h2 := hk k r
  have h4 := mul_le_mul_of_nonneg_left hs (by linarith : (0 : ℚ) ≤ 5 * P.u)
  have h5 : P.u ≤ P.u * (R * (1 + size m)) := le_mul_of_one_le_right hu0.le (by nlinarith)
  have h6 : 131072 * P.u * R * (1 + size m) = 131072 * (P.u * (R * (1 + size m))) := by ring
  have h7 : 129110 * P.u * R * (1 + size m) = 129110 * (P.u * (R * (1 + size m))) := by ring
  have h8 : 5 * P.u * (3 * (R * (1 + size m))) = 15 * (P.u * (R * (1 + size m))) := by ring
  have hN : (∑ c : Fin 3, ∑ r : Fin 3, |(m c.castSucc r.castSucc).val|) = size m := rfl
  rw [hN, h6]
  rw [h7] at h2
  rw [h8] at h4
  have h9 := abs_sub_le (A 0 r * i k 0 + A 1 r * i k 1 + A 2 r * i k 2 + t r).val
    ((A 0 r).val * (i k 0).val + (A 1 r).val * (i k 1).val + (A 2 r).val * (i k 2).val + (t r).val) (o k r).val
  have h10 : 0 ≤ P.u * (R * (1 + size m)) := by positivity
  linarith

/-- The version for three points: the matrix maps the three points, and the two auxiliary points at distance one off the planes,
in the same way. -/
theorem C143_three (hp : 24 ≤ P.p) (sqrt : Flt P.fmt → Flt P.fmt) {i o : Fin 4 → Vec (Flt P.fmt) 3} {R : ℚ} (hR : P.Rep R) (hR1 : 1 ≤ R)
    (room : 2 ^ 9 * R < P.bound) (hi : FourPoints P R i) (ho : FourPoints P R o)
    (hi3 : i 3 = i 0 + normalizeG sqrt (cross (i 1 - i 0) (i 2 - i 0))) (ho3 : o 3 = o 0 + normalizeG sqrt (cross (o 1 - o 0) (o 2 - o 0)))
    {m : Mat (Flt P.fmt) 4 4}
    (h : pointsTransformationMatrix3G sqrt (i 0) (i 1) (i 2) (o 0) (o 1) (o 2) = some m) (hm : ∀ c r, (m c r).isFinite) :
    ∀ (k : Fin 4) (r : Fin 3), |(∑ c : Fin 3, (m c.castSucc r.castSucc).val * (i k c).val) + (m 3 r.castSucc).val - (o k r).val| ≤
      131072 * P.u * R * (1 + ∑ c : Fin 3, ∑ r : Fin 3, |(m c.castSucc r.castSucc).val|) := by
  unfold pointsTransformationMatrix3G at h
  rw [← hi3, ← ho3] at h
  exact (C143_maps hp hR hR1 room hi ho h hm).2

namespace FltPts

/-- The position of the entry of the system in column `c` if the three vectors are along the axes. -/
def axisPerm : Equiv.Perm (Fin 9) where
  toFun c := ⟨3 * (c.val % 3) + c.val / 3, by omega⟩
  invFun c := ⟨3 * (c.val % 3) + c.val / 3, by omega⟩
  left_inv c := Fin.ext (by show 3 * ((3 * (c.val % 3) + c.val / 3) % 3) + (3 * (c.val % 3) + c.val / 3) / 3 = c.val; omega)
  right_inv c := Fin.ext (by show 3 * ((3 * (c.val % 3) + c.val / 3) % 3) + (3 * (c.val % 3) + c.val / 3) / 3 = c.val; omega)

theorem axis_system (v : Fin 3 → Vec (Flt P.fmt) 3) (hv : ∀ k c, c ≠ k → v k c = 0) (c r : Fin 9) :
    pointsSystem (v 0) (v 1) (v 2) c r = if r = axisPerm c then v ⟨c.val % 3, by omega⟩ ⟨c.val % 3, by omega⟩ else 0 := by
  rw [system_entry]
  by_cases h : r = axisPerm c
  · rw [if_pos h]
    have h1 : r.val = 3 * (c.val % 3) + c.val / 3 := congrArg Fin.val h
    rw [if_pos (by omega)]
    have e : (⟨r.val / 3, by omega⟩ : Fin 3) = ⟨c.val % 3, by omega⟩ := Fin.ext (by show r.val / 3 = c.val % 3; omega)
    rw [e]
  · rw [if_neg h]
    split_ifs with h1
    · refine hv _ _ fun h2 => h (Fin.ext ?_)
      have h3 : c.val % 3 = r.val / 3 := congrArg Fin.val h2
      show r.val = 3 * (c.val % 3) + c.val / 3
      omega
    · rfl

theorem sub_self_fin {a : Flt P.fmt} (h : a.isFinite) : a - a = 0 := by
  rw [Flt.sub_eq h h, sub_self]
  exact Flt.round_of_rep P.fmt.rep_zero

theorem rhs_axis (w : Fin 3 → Vec (Flt P.fmt) 3) (c : Fin 9) :
    rhs w (axisPerm c) = w ⟨c.val % 3, by omega⟩ ⟨c.val / 3, by omega⟩ := by
  fin_cases c <;> rfl

theorem rhs_mem (w : Fin 3 → Vec (Flt P.fmt) 3) (h : ∀ k r, (w k r).isFinite) (j : Fin 9) : (rhs w j).isFinite := by
  have := rhs_axis w (axisPerm.symm j)
  rw [Equiv.apply_symm_apply] at this
  rw [this]; exact h _ _

end FltPts

/-- Corner of a box: if the points 1, 2, 3 differ from the point 0 only in the coordinate x, y, z, then there is a result exactly if
all three differences are at least `1e-15` in magnitude, and then every entry of the linear part is a single division. -/
theorem C143_corner (i o : Fin 4 → Vec (Flt P.fmt) 3) (hi : ∀ c, (i 0 c).isFinite) (hd : ∀ k : Fin 3, (i k.succ k - i 0 k).isFinite)
    (hax : ∀ (k c : Fin 3), c ≠ k → i k.succ c = i 0 c) (ho : ∀ (k c : Fin 3), (o k.succ c - o 0 c).isFinite)
    (ho0 : ∀ c, (o 0 c).isFinite) :
    (pointsTransformationMatrix4G (i 0) (i 1) (i 2) (i 3) (o 0) (o 1) (o 2) (o 3) = none ↔
      ∃ k : Fin 3, |(i k.succ k - i 0 k).val| < lupLimit) ∧
    ((∀ k : Fin 3, lupLimit ≤ |(i k.succ k - i 0 k).val|) →
      (∀ (c r : Fin 3), ((o c.succ r - o 0 r) / (i c.succ c - i 0 c)).isFinite) →
      ∃ m, pointsTransformationMatrix4G (i 0) (i 1) (i 2) (i 3) (o 0) (o 1) (o 2) (o 3) = some m ∧
        (∀ (c r : Fin 3), m c.castSucc r.castSucc = (o c.succ r - o 0 r) / (i c.succ c - i 0 c)) ∧
        (∀ r : Fin 3, m 3 r.castSucc = (o (0 : Fin 3).succ r - o 0 r) / (i (0 : Fin 3).succ 0 - i 0 0) * -(i 0 0) +
          (o (1 : Fin 3).succ r - o 0 r) / (i (1 : Fin 3).succ 1 - i 0 1) * -(i 0 1) +
          (o (2 : Fin 3).succ r - o 0 r) / (i (2 : Fin 3).succ 2 - i 0 2) * -(i 0 2) + o 0 r) ∧
        ∀ c, m c 3 = if c = 3 then 1 else 0) := by
  set v : Fin 3 → Vec (Flt P.fmt) 3 := fun k => i k.succ - i 0 with hv
  set w : Fin 3 → Vec (Flt P.fmt) 3 := fun k => o k.succ - o 0 with hw
  have hv0 : ∀ k c, c ≠ k → v k c = 0 := by
    intro k c h
    show i k.succ c - i 0 c = 0
    rw [hax k c h]; exact sub_self_fin (hi c)
  have hent := axis_system v hv0
  set d : Vec (Flt P.fmt) 9 := fun c => v ⟨c.val % 3, by omega⟩ ⟨c.val % 3, by omega⟩ with hdd
  have hdf : ∀ c, (d c).isFinite := fun c => hd _
  have hlim : (∀ c, lupLimit ≤ |(d c).val|) ↔ ∀ k : Fin 3, lupLimit ≤ |(i k.succ k - i 0 k).val| := by
    constructor
    · intro h k
      have := h ⟨k.val, by omega⟩
      have e : (⟨k.val % 3, by omega⟩ : Fin 3) = k := Fin.ext (Nat.mod_eq_of_lt k.isLt)
      simp only [hdd] at this
      rw [e] at this
      exact this
    · intro h c; exact h _
  have hun : pointsTransformationMatrix4G (i 0) (i 1) (i 2) (i 3) (o 0) (o 1) (o 2) (o 3) =
      if (lupSolve (pointsSystem (v 0) (v 1) (v 2)) (rhs w)).1 then
        some (pointsResult (lupSolve (pointsSystem (v 0) (v 1) (v 2)) (rhs w)).2 (i 0) (o 0)) else none := rfl
  have hsucc := (C113_monomial_success P axisPerm d (rhs w) (pointsSystem (v 0) (v 1) (v 2)) hent hdf).1
  constructor
  · rw [hun]
    have : (∃ k : Fin 3, |(i k.succ k - i 0 k).val| < lupLimit) ↔ ¬ ∀ c, lupLimit ≤ |(d c).val| := by
      rw [hlim]; push Not; rfl
    rw [this, ← hsucc]
    split_ifs with h
    · simp [h]
    · simp [h]
  · intro h1 h2
    have hq : ∀ c : Fin 9, rhs w (axisPerm c) / d c = (o (⟨c.val % 3, by omega⟩ : Fin 3).succ ⟨c.val / 3, by omega⟩ - o 0 ⟨c.val / 3, by omega⟩) /
        (i (⟨c.val % 3, by omega⟩ : Fin 3).succ ⟨c.val % 3, by omega⟩ - i 0 ⟨c.val % 3, by omega⟩) := by
      intro c; rw [rhs_axis]; rfl
    have hs := (C113_monomial_solve P axisPerm d (rhs w) (pointsSystem (v 0) (v 1) (v 2)) hent hdf (hlim.2 h1)
      (rhs_mem w fun k r => ho k r) (fun c => by rw [hq]; exact h2 _ _)).1
    rw [hun, hs]
    refine ⟨_, rfl, ?_⟩
    have hX : ∀ c r, (lin (fun c => rhs w (axisPerm c) / d c) c r).isFinite := by
      intro c r
      unfold lin
      beta_reduce
      rw [hq]
      exact h2 _ _
    have hl : ∀ c r : Fin 3, lin (fun c => rhs w (axisPerm c) / d c) c r = (o c.succ r - o 0 r) / (i c.succ c - i 0 c) := by
      intro c r
      unfold lin
      beta_reduce
      rw [hq]
      have e1 : (⟨(3 * r.val + c.val) % 3, by omega⟩ : Fin 3) = c := Fin.ext (by show (3 * r.val + c.val) % 3 = c.val; omega)
      have e2 : (⟨(3 * r.val + c.val) / 3, by omega⟩ : Fin 3) = r := Fin.ext (by show (3 * r.val + c.val) / 3 = r.val; omega)
      simp only [e1, e2]
    rw [result_eq, FltBM.conj_aff _ _ (-i 0) hX ho0 (fun c => Flt.neg_fin (hi c))]
    refine ⟨fun c r => ?_, fun r => ?_, fun c => by fin_cases c <;> rfl⟩
    · rw [← hl]
      fin_cases c <;> fin_cases r <;> rfl
    · rw [← hl, ← hl, ← hl]
      fin_cases r <;> rfl

/-- The unit vectors and the origin. -/
def cornerPts : Fin 4 → Vec (Flt binary64.fmt) 3 := ![0, vaxis 3 0, vaxis 3 1, vaxis 3 2]

/-- The hypotheses of `C143_maps` and `C143_corner` are met by the corner of the unit cube, mapped to itself. -/
example : FourPoints binary64 1 cornerPts ∧ binary64.Rep 1 ∧ 2 ^ 9 * 1 < binary64.bound ∧
    ∃ m, pointsTransformationMatrix4G (cornerPts 0) (cornerPts 1) (cornerPts 2) (cornerPts 3) (cornerPts 0) (cornerPts 1) (cornerPts 2)
      (cornerPts 3) = some m ∧ ∀ c r, (m c r).isFinite := by
  have hpt : ∀ k c, cornerPts k c = if k.val = c.val + 1 then 1 else 0 := by
    intro k c; fin_cases k <;> fin_cases c <;> rfl
  have hf : ∀ k c, (cornerPts k c).isFinite := by
    intro k c; rw [hpt]; split_ifs; exacts [Flt.one_finite, Flt.zero_finite]
  have h0 : ∀ c, cornerPts 0 c = 0 := fun c => by rw [hpt, if_neg (by simp)]
  have hsub : ∀ k c : Fin 3, cornerPts k.succ c - cornerPts 0 c = if c = k then 1 else 0 := by
    intro k c
    rw [h0, Flt.sub_zero', hpt]
    by_cases h : c = k
    · rw [if_pos h, if_pos (by rw [h]; rfl)]
    · rw [if_neg h, if_neg (by intro h'; exact h (Fin.ext (by simpa using h'.symm)))]
  have hb : (1 : ℚ) ≤ 1 := le_rfl
  refine ⟨⟨hf, fun k c => ?_⟩, (Flt.rep_val (1 : Flt binary64.fmt)).1, ?_, ?_⟩
  · rw [hpt]; split_ifs
    · rw [Flt.one_val, abs_one]
    · rw [Flt.zero_val, abs_zero]; norm_num
  · rw [show binary64.bound = (2 : ℚ) ^ (1024 : ℤ) by norm_num [BinPar.bound, binary64]]
    rw [mul_one, ← zpow_natCast]
    exact zpow_lt_zpow_right₀ (by norm_num) (by norm_num)
  · have hq : ∀ c r : Fin 3, (cornerPts c.succ r - cornerPts 0 r) / (cornerPts c.succ c - cornerPts 0 c) = if r = c then 1 else 0 := by
      intro c r
      rw [hsub, hsub, if_pos rfl, Flt.div_one']
    obtain ⟨m, h1, h2, h3, h4⟩ := (C143_corner cornerPts cornerPts (hf 0) (fun k => by rw [hsub, if_pos rfl]; exact Flt.one_finite)
      (fun k c h => by rw [h0, hpt, if_neg (by intro h'; exact h (Fin.ext (by simpa using h'.symm)))])
      (fun k c => by rw [hsub]; split_ifs; exacts [Flt.one_finite, Flt.zero_finite]) (hf 0)).2
      (fun k => by rw [hsub, if_pos rfl, Flt.one_val, abs_one]; exact lupLimit_le_one)
      (fun c r => by rw [hq]; split_ifs; exacts [Flt.one_finite, Flt.zero_finite])
    refine ⟨m, h1, fun c r => ?_⟩
    induction r using Fin.lastCases with
    | last => rw [show (Fin.last 3 : Fin 4) = 3 from rfl, h4]; split_ifs; exacts [Flt.one_finite, Flt.zero_finite]
    | cast r =>
      induction c using Fin.lastCases with
      | last =>
        rw [show (Fin.last 3 : Fin 4) = 3 from rfl, h3, h0, h0, h0, h0]
        have hz : ∀ c r : Fin 3, (cornerPts c.succ r - 0) / (cornerPts c.succ c - 0) * -(0 : Flt binary64.fmt) = 0 := by
          intro c r
          have := hq c r
          rw [h0, h0] at this
          rw [this, Flt.neg_zero']
          split_ifs <;> exact Flt.mul_zero_fin (by first | exact Flt.one_finite | exact Flt.zero_finite)
        have e0 : ∀ c, cornerPts 0 c = 0 := h0
        simp only [e0, hz, Flt.zero_add']
        exact Flt.zero_finite
      | cast c => rw [h2, hq]; split_ifs; exacts [Flt.one_finite, Flt.zero_finite]

end vm
