import Verif.Model.Distance
import Verif.Lemmas.FltEr
import Verif.Props.FltPlane
import Verif.Props.FltHull
import Verif.Props.FltPolygon
import Verif.Props.FltTriangle

/-! Lemmas about distances of points from rays and segments in IEEE arithmetic. -/

set_option linter.unusedSectionVars false
set_option linter.unusedSimpArgs false

namespace vm

/-- The squared length of a vector. -/
def nsq {K : Type*} [Field K] (v : Vec K 3) : K := v 0 ^ 2 + v 1 ^ 2 + v 2 ^ 2

namespace FltDist
variable {P : BinPar}

/-! ### Estimates -/

section est
variable {K : Type*} [Field K] [LinearOrder K] [IsStrictOrderedRing K]

theorem nsq_nonneg (v : Vec K 3) : 0 ≤ nsq v := by unfold nsq; positivity

/-- The sum of absolute values of products, by the Cauchy-Schwarz inequality. -/
theorem cauchy_abs {a b : Vec K 3} {A B C : K} (ha : nsq a ≤ A) (hb : nsq b ≤ B) (hC : 0 ≤ C) (h : A * B ≤ C ^ 2) :
    |a 0 * b 0| + |a 1 * b 1| + |a 2 * b 2| ≤ C := by
  refine abs_le_of_sq_le_sq' ?_ hC |>.2
  have h1 : nsq a * nsq b ≤ A * B := mul_le_mul ha hb (nsq_nonneg _) (le_trans (nsq_nonneg _) ha)
  refine le_trans ?_ (h1.trans h)
  unfold nsq
  simp only [abs_mul]
  have e := fun i => sq_abs (a i)
  have f := fun i => sq_abs (b i)
  rw [← e 0, ← e 1, ← e 2, ← f 0, ← f 1, ← f 2]
  nlinarith [sq_nonneg (|a 0| * |b 1| - |a 1| * |b 0|), sq_nonneg (|a 0| * |b 2| - |a 2| * |b 0|), sq_nonneg (|a 1| * |b 2| - |a 2| * |b 1|)]

/-- A computed square. -/
theorem sq_err {q q' e : K} (h : |q' - q| ≤ e) : |q' ^ 2 - q ^ 2| ≤ e * (2 * |q| + e) := by
  have h1 : q' ^ 2 - q ^ 2 = (q' - q) * (2 * q + (q' - q)) := by ring
  rw [h1, abs_mul]
  have he : 0 ≤ e := (abs_nonneg _).trans h
  refine mul_le_mul h ?_ (abs_nonneg _) he
  refine (abs_add_le _ _).trans ?_
  rw [abs_mul, abs_two]
  linarith

/-- The squared length of a vector with small errors in its components. -/
theorem nsq_err {a b : Vec K 3} {e s : K} (h : ∀ i, |a i - b i| ≤ e) (hs : |b 0| + |b 1| + |b 2| ≤ s) :
    |nsq a - nsq b| ≤ e * (2 * s + 3 * e) := by
  have k0 := sq_err (h 0)
  have k1 := sq_err (h 1)
  have k2 := sq_err (h 2)
  have he : 0 ≤ e := (abs_nonneg _).trans (h 0)
  have : nsq a - nsq b = (a 0 ^ 2 - b 0 ^ 2) + (a 1 ^ 2 - b 1 ^ 2) + (a 2 ^ 2 - b 2 ^ 2) := by unfold nsq; ring
  rw [this]
  refine (abs_add_three _ _ _).trans ?_
  have := mul_le_mul_of_nonneg_left hs he
  linarith

theorem sum_abs_of_nsq {b : Vec K 3} {s : K} (hs : 0 ≤ s) (h : 3 * nsq b ≤ s ^ 2) : |b 0| + |b 1| + |b 2| ≤ s := by
  have := cauchy_abs (a := b) (b := fun _ => 1) (A := nsq b) (B := 3) le_rfl (by simp [nsq]; norm_num) hs (by linarith)
  simpa using this

end est

theorem absDot3 (a b : Vec (Flt P.fmt) 3) : absDot a b = |(a 0).val * (b 0).val| + |(a 1).val * (b 1).val| + |(a 2).val * (b 2).val| := by
  unfold absDot
  rw [Fin.sum_univ_three]

theorem exactDot3 (a b : Vec (Flt P.fmt) 3) : exactDot a b = (a 0).val * (b 0).val + (a 1).val * (b 1).val + (a 2).val * (b 2).val := by
  unfold exactDot
  rw [Fin.sum_univ_three]

theorem eta_small (hu : 250 * P.u ≤ 1) {X : ℚ} (hX : 1 ≤ X) : 500 * P.eta ≤ P.u * X := by
  have h1 : 2 * P.eta ≤ P.u * P.u := by
    have h2 := P.hmin
    unfold BinPar.eta BinPar.u
    rw [← zpow_add₀ (by norm_num), show (2 : ℚ) * 2 ^ (P.qmin - 1) = 2 ^ (1 + (P.qmin - 1)) by rw [zpow_add₀ (by norm_num)]; norm_num]
    exact zpow_le_zpow_right₀ (by norm_num) (by omega)
  have hp := P.u_pos
  nlinarith

/-- A dot product of vectors of known size. -/
theorem dot_of (hu : 250 * P.u ≤ 1) {a b : Vec (Flt P.fmt) 3} (ha : ∀ i, (a i).isFinite) (hb : ∀ i, (b i).isFinite) {C Y : ℚ}
    (hC : |(a 0).val * (b 0).val| + |(a 1).val * (b 1).val| + |(a 2).val * (b 2).val| ≤ C) (hY : 1 ≤ Y) (hbd : 2 * C + 2 * Y < P.bound) :
    (dot a b).isFinite ∧ |(dot a b).val - ((a 0).val * (b 0).val + (a 1).val * (b 1).val + (a 2).val * (b 2).val)| ≤
      302 / 100 * P.u * C + 1 / 100 * P.u * Y := by
  have hp := P.u_pos
  have he := P.eta_pos
  have he' := eta_small hu hY
  have hC0 : 0 ≤ C := le_trans (by positivity) hC
  have c1 : (1 + P.u) ^ 3 - 1 ≤ 302 / 100 * P.u := by nlinarith [mul_pos hp hp, mul_pos (mul_pos hp hp) hp]
  have hE : dotErr P 3 (absDot a b) ≤ 302 / 100 * P.u * C + 1 / 100 * P.u * Y := by
    unfold dotErr
    have c3 : ((1 + P.u) ^ 3 - 1) * absDot a b ≤ 302 / 100 * P.u * C :=
      mul_le_mul c1 (by rw [absDot3]; exact hC) (absDot_nonneg _ _) (by positivity)
    have c4 : ((3 : ℕ) : ℚ) * (1 + P.u) ^ 3 * P.eta ≤ 3 * (102 / 100) * P.eta := by
      refine mul_le_mul_of_nonneg_right ?_ he.le
      push_cast
      linarith
    have : 0 < P.u * Y := by positivity
    linarith
  have hf : (dot a b).isFinite := by
    refine dot_finite a b ha hb ?_
    have h1 : absDot a b ≤ C := by rw [absDot3]; exact hC
    have h2 : 302 / 100 * P.u * C ≤ C := by nlinarith
    have h3 : 1 / 100 * P.u * Y ≤ Y := by nlinarith
    linarith
  exact ⟨hf, by rw [← exactDot3]; exact (dot_err a b hf).trans hE⟩

/-- The value of the maximum of a number and zero. -/
theorem max_zero {x : Flt P.fmt} (hx : x.isFinite) : (vmax x [0]).isFinite ∧ (vmax x [0]).val = max x.val 0 := by
  show ((if Cmp.lt (0 : Flt P.fmt) x then x else 0 : Flt P.fmt)).isFinite ∧ ((if Cmp.lt (0 : Flt P.fmt) x then x else 0 : Flt P.fmt)).val = _
  rw [zero_lt_flt hx]
  by_cases h : 0 < x.val
  · simp [h, h.le, hx]
  · simp only [h, decide_false, Bool.false_eq_true, if_false]
    exact ⟨Flt.zero_finite, by rw [Flt.zero_val, max_eq_right (not_lt.1 h)]⟩

/-- A computed point `o + d t` minus `p`. -/
theorem foot_comp (hu : 250 * P.u ≤ 1) {o d t p : Flt P.fmt} (ho : o.isFinite) (hd : d.isFinite) (ht : t.isFinite) (hp : p.isFinite) {X : ℚ}
    (hX : 1 ≤ X) (oX : |o.val| ≤ X) (pX : |p.val| ≤ X) (dX : |d.val * t.val| ≤ 39 / 10 * X) (hbd : 1024 * X < P.bound) :
    (o + d * t - p).isFinite ∧ |(o + d * t - p).val - (o.val + d.val * t.val - p.val)| ≤ 15 * P.u * X := by
  have hp0 := P.u_pos
  have he := P.eta_pos
  have he' := eta_small hu hX
  have uX : 0 < P.u * X := by positivity
  have uX' : 250 * (P.u * X) ≤ X := by nlinarith
  have i1 := is_mul (c := P.fl (d.val * t.val)) ⟨hd, rfl⟩ ⟨ht, rfl⟩ rfl (fl_lt_bound (by linarith))
  have e1 := P.fl_err_u (d.val * t.val)
  have e1' : |P.fl (d.val * t.val) - d.val * t.val| ≤ 391 / 100 * (P.u * X) := by
    have := mul_le_mul_of_nonneg_left dX hp0.le
    linarith
  set m := P.fl (d.val * t.val)
  have hm : |m| ≤ 392 / 100 * X := by
    have := abs_sub_abs_le_abs_sub m (d.val * t.val)
    linarith
  have s1 : |o.val + m| ≤ 492 / 100 * X := (abs_add_le _ _).trans (by linarith)
  have i2 := is_add (c := P.fl (o.val + m)) ⟨ho, rfl⟩ i1 rfl (fl_lt_bound (by linarith))
  have rm : P.Rep m := i1.2 ▸ (Flt.rep_val (d * t)).1
  have e2 := P.fl_add_err_u (Flt.rep_val o).1 rm
  have e2' : |P.fl (o.val + m) - (o.val + m)| ≤ 492 / 100 * (P.u * X) := by
    have := mul_le_mul_of_nonneg_left s1 hp0.le
    linarith
  set k := P.fl (o.val + m)
  have hk : |k| ≤ 494 / 100 * X := by
    have := abs_sub_abs_le_abs_sub k (o.val + m)
    linarith
  have s2 : |k - p.val| ≤ 594 / 100 * X := (abs_sub _ _).trans (by linarith)
  have i3 := is_sub (c := P.fl (k - p.val)) i2 ⟨hp, rfl⟩ rfl (fl_lt_bound (by linarith))
  have rk : P.Rep k := i2.2 ▸ (Flt.rep_val (o + d * t)).1
  have e3 := P.fl_sub_err_u rk (Flt.rep_val p).1
  have e3' : |P.fl (k - p.val) - (k - p.val)| ≤ 594 / 100 * (P.u * X) := by
    have := mul_le_mul_of_nonneg_left s2 hp0.le
    linarith
  refine ⟨i3.1, ?_⟩
  rw [i3.2]
  have : P.fl (k - p.val) - (o.val + d.val * t.val - p.val) =
      (P.fl (k - p.val) - (k - p.val)) + (k - (o.val + m)) + (m - d.val * t.val) := by ring
  rw [this]
  refine (abs_add_three _ _ _).trans ?_
  linarith

/-- A computed squared length of a vector with small errors in its components. -/
theorem sqlen_err (hu : 250 * P.u ≤ 1) {v : Vec (Flt P.fmt) 3} (hv : ∀ i, (v i).isFinite) {q : Vec ℚ 3} {X : ℚ} (hX : 1 ≤ X)
    (hq : ∀ i, |(v i).val - q i| ≤ 15 * P.u * X) (hQ : nsq q ≤ 13 * X ^ 2) (hbd : 1024 * X ^ 2 < P.bound) :
    (squaredLength v).isFinite ∧ |(squaredLength v).val - nsq q| ≤ 240 * P.u * X ^ 2 := by
  have hp := P.u_pos
  have hs : |q 0| + |q 1| + |q 2| ≤ 625 / 100 * X := sum_abs_of_nsq (by linarith) (by nlinarith)
  have k1 := nsq_err (a := fun i => (v i).val) hq hs
  have uX : 0 < P.u * X ^ 2 := by positivity
  have uX' : 250 * (P.u * X ^ 2) ≤ X ^ 2 := by nlinarith [sq_nonneg X]
  have k2 : 15 * P.u * X * (2 * (625 / 100 * X) + 3 * (15 * P.u * X)) ≤ 191 * (P.u * X ^ 2) := by
    have : 15 * P.u * X * (2 * (625 / 100 * X) + 3 * (15 * P.u * X)) = 187 * (P.u * X ^ 2) + 1 / 2 * (P.u * X ^ 2) + 675 * P.u * (P.u * X ^ 2) := by ring
    rw [this]
    have : 675 * P.u * (P.u * X ^ 2) ≤ 27 / 10 * (P.u * X ^ 2) := mul_le_mul_of_nonneg_right (by linarith) uX.le
    linarith
  have k3 := abs_le.1 (k1.trans k2)
  have hn : nsq (fun i => (v i).val) ≤ 138 / 10 * X ^ 2 := by linarith [k3.2]
  have hC : |(v 0).val * (v 0).val| + |(v 1).val * (v 1).val| + |(v 2).val * (v 2).val| ≤ 138 / 10 * X ^ 2 := by
    rw [abs_of_nonneg (mul_self_nonneg _), abs_of_nonneg (mul_self_nonneg _), abs_of_nonneg (mul_self_nonneg _)]
    unfold nsq at hn
    linarith
  have hX2 : 1 ≤ X ^ 2 := by nlinarith
  obtain ⟨f, e⟩ := dot_of hu hv hv hC hX2 (by linarith)
  refine ⟨f, ?_⟩
  have e' : |(squaredLength v).val - nsq (fun i => (v i).val)| ≤ 42 * (P.u * X ^ 2) := by
    refine le_trans (le_of_eq ?_) (e.trans ?_)
    · unfold squaredLength nsq
      congr 2
      ring
    · linarith
  have e2 := abs_le.1 e'
  rw [abs_le]
  constructor <;> linarith [e2.1, e2.2, k3.1, k3.2]

end FltDist
end vm
