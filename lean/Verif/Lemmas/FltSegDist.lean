import Verif.Model.DistanceG
import Verif.Lemmas.FltDistance
import Verif.Lemmas.FltPlanePts

/-! Lemmas about distances of points from segments in IEEE arithmetic. -/

set_option linter.unusedSectionVars false
set_option linter.unusedSimpArgs false

namespace vm
namespace FltDist
variable {P : BinPar}

theorem vlen_nsq (v : Vec ℚ 3) : vlen v ^ 2 = ((nsq v : ℚ) : ℝ) := by
  rw [FltPts.vlen_sq, Fin.sum_univ_three]
  rfl

/-- The clamped position. -/
theorem clamp_val {x l : Flt P.fmt} (hx : x.isFinite) (hl : l.isFinite) :
    (vmin (vmax 0 [x]) [l]).isFinite ∧ (vmin (vmax 0 [x]) [l]).val = min (max 0 x.val) l.val := by
  have h1 : (vmax 0 [x]).isFinite ∧ (vmax 0 [x]).val = max 0 x.val := by
    show ((if Cmp.lt x (0 : Flt P.fmt) then 0 else x : Flt P.fmt)).isFinite ∧ ((if Cmp.lt x (0 : Flt P.fmt) then 0 else x : Flt P.fmt)).val = _
    rw [lt_zero_flt hx]
    by_cases h : x.val < 0
    · simp only [h, decide_true, if_true]
      exact ⟨Flt.zero_finite, by rw [Flt.zero_val, max_eq_left h.le]⟩
    · simp only [h, decide_false, Bool.false_eq_true, if_false]
      exact ⟨hx, by rw [max_eq_right (not_lt.1 h)]⟩
  rw [← h1.2]
  set y := vmax 0 [x]
  show ((if Cmp.lt y l then y else l : Flt P.fmt)).isFinite ∧ ((if Cmp.lt y l then y else l : Flt P.fmt)).val = _
  rw [Flt.lt_val h1.1 hl]
  by_cases h : y.val < l.val
  · simp only [h, decide_true, if_true]
    exact ⟨h1.1, by rw [min_eq_left h.le]⟩
  · simp only [h, decide_false, Bool.false_eq_true, if_false]
    exact ⟨hl, by rw [min_eq_right (not_lt.1 h)]⟩

theorem clamp_err {x y l L e : ℝ} (h1 : |x - y| ≤ e) (h2 : |l - L| ≤ e) : |min (max 0 x) l - min (max 0 y) L| ≤ e := by
  refine (abs_min_sub_min_le_max _ _ _ _).trans (max_le ?_ h2)
  refine (abs_max_sub_max_le_max _ _ _ _).trans (max_le ?_ h1)
  rw [sub_self, abs_zero]
  exact (abs_nonneg _).trans h1

/-- Lengths of nearby vectors. -/
theorem vlen_near {u : ℚ} (hu0 : 0 ≤ u) (hu1 : u ≤ 1) {v w : Vec ℚ 3} (h : ∀ i, |w i - v i| ≤ u * |v i|) :
    (1 - u) * vlen v ≤ vlen w ∧ vlen w ≤ (1 + u) * vlen v := by
  have k1 : ∀ i, (1 - u) ^ 2 * v i ^ 2 ≤ w i ^ 2 := fun i => by
    rw [← sq_abs (v i), ← sq_abs (w i), ← mul_pow]
    refine pow_le_pow_left₀ (mul_nonneg (by linarith) (abs_nonneg _)) ?_ 2
    have := abs_sub_abs_le_abs_sub (v i) (w i)
    rw [abs_sub_comm] at this
    linarith [h i]
  have k2 : ∀ i, w i ^ 2 ≤ (1 + u) ^ 2 * v i ^ 2 := fun i => by
    rw [← sq_abs (v i), ← sq_abs (w i), ← mul_pow]
    refine pow_le_pow_left₀ (abs_nonneg _) ?_ 2
    have := abs_sub_abs_le_abs_sub (w i) (v i)
    linarith [h i]
  have n1 : (1 - u) ^ 2 * nsq v ≤ nsq w := by unfold nsq; linarith [k1 0, k1 1, k1 2]
  have n2 : nsq w ≤ (1 + u) ^ 2 * nsq v := by unfold nsq; linarith [k2 0, k2 1, k2 2]
  have n1' := (Rat.cast_le (K := ℝ)).2 n1
  have n2' := (Rat.cast_le (K := ℝ)).2 n2
  push_cast at n1' n2'
  rw [← vlen_nsq, ← vlen_nsq, ← mul_pow] at n1' n2'
  have hu1r : (u : ℝ) ≤ 1 := by exact_mod_cast hu1
  have hu0r : (0 : ℝ) ≤ u := by exact_mod_cast hu0
  have m := FltPts.vlen_nonneg v
  exact ⟨abs_le_of_sq_le_sq' n1' (FltPts.vlen_nonneg w) |>.2, abs_le_of_sq_le_sq' n2' (mul_nonneg (by linarith) m) |>.2⟩

/-- A component of a unit vector computed from an edge with rounding errors. -/
theorem dir_err {u η v w d L L' : ℝ} (hu0 : 0 < u) (hu : 250 * u ≤ 1) (hL : 0 < L) (h1 : (1 - u) * L ≤ L') (h2 : L' ≤ (1 + u) * L)
    (hw : |w - v| ≤ u * |v|) (hd : |d - w / L'| ≤ 29 / 4 * u * (|w| / L') + η) : |d - v / L| ≤ 19 / 2 * u * (|v| / L) + η := by
  have hL' : 249 / 250 * L ≤ L' := by nlinarith
  have hL'0 : 0 < L' := by linarith
  have hv := abs_nonneg v
  have e1 : |w / L' - v / L| ≤ 2 * (250 / 249) * u * (|v| / L) := by
    rw [div_sub_div _ _ hL'0.ne' hL.ne', abs_div, abs_of_pos (mul_pos hL'0 hL), div_le_iff₀ (mul_pos hL'0 hL)]
    have : w * L - L' * v = (w - v) * L + v * (L - L') := by ring
    rw [this]
    refine (abs_add_le _ _).trans ?_
    rw [abs_mul, abs_mul, abs_of_pos hL]
    have k1 : |L - L'| ≤ u * L := by rw [abs_le]; constructor <;> linarith
    have k2 := mul_le_mul_of_nonneg_right hw hL.le
    have k3 := mul_le_mul_of_nonneg_left k1 hv
    have k4 : 2 * (250 / 249) * u * (|v| / L) * (L' * L) = 2 * (250 / 249) * u * |v| * L' := by field_simp
    rw [k4]
    have k5 : 2 * (250 / 249) * u * |v| * (249 / 250 * L) ≤ 2 * (250 / 249) * u * |v| * L' := mul_le_mul_of_nonneg_left hL' (by positivity)
    linarith
  have e2 : |w| / L' ≤ 252 / 249 * (|v| / L) := by
    rw [div_le_iff₀ hL'0]
    have k1 : |w| ≤ (1 + u) * |v| := by have := abs_sub_abs_le_abs_sub w v; linarith
    have k4 : 252 / 249 * (|v| / L) * (249 / 250 * L) ≤ 252 / 249 * (|v| / L) * L' := mul_le_mul_of_nonneg_left hL' (by positivity)
    have k5 : 252 / 249 * (|v| / L) * (249 / 250 * L) = 252 / 250 * |v| := by field_simp
    have k6 : (1 + u) * |v| ≤ 252 / 250 * |v| := mul_le_mul_of_nonneg_right (by linarith) hv
    linarith
  have e3 : u * (|w| / L') ≤ u * (252 / 249 * (|v| / L)) := mul_le_mul_of_nonneg_left e2 hu0.le
  have := abs_sub_le d (w / L') (v / L)
  have p : 0 ≤ u * (|v| / L) := by positivity
  linarith

/-- The length and the direction of a segment. -/
theorem edge_dir (hu : 250 * P.u ≤ 1) {s : Flt P.fmt → Flt P.fmt} (hs : FaithfulSqrt P s) {w : Vec (Flt P.fmt) 3} {V : Vec ℚ 3}
    (hf : (squaredLength w).isFinite) (hw : ∀ i, |(w i).val - V i| ≤ P.u * |V i|) (hV : 4 * P.eta ≤ P.u * nsq V) :
    0 < vlen V ∧ (lengthG s w).isFinite ∧ |((lengthG s w).val : ℝ) - vlen V| ≤ 61 / 10 * P.u * vlen V ∧
    ∀ i, (normalizeG s w i).isFinite ∧ |((normalizeG s w i).val : ℝ) - V i / vlen V| ≤ 19 / 2 * P.u * (|(V i : ℝ)| / vlen V) + P.eta := by
  have hp := P.u_pos
  have he := P.eta_pos
  have hε : P.lenErr 3 ≤ 1 / 50 := by unfold BinPar.lenErr; push_cast; linarith
  obtain ⟨n1, n2⟩ := vlen_near hp.le (by linarith) (w := fun i => (w i).val) hw
  have hur : (0 : ℝ) < P.u := by exact_mod_cast hp
  have hu' : 250 * (P.u : ℝ) ≤ 1 := by exact_mod_cast hu
  have hVp : 0 < nsq V := by
    by_contra hc
    have := mul_le_mul_of_nonneg_left (not_lt.1 hc) hp.le
    linarith
  have hL : 0 < vlen V := by
    refine lt_of_le_of_ne (FltPts.vlen_nonneg V) fun h0 => ?_
    have := vlen_nsq V
    rw [← h0] at this
    have : ((nsq V : ℚ) : ℝ) = 0 := by rw [← this]; norm_num
    exact hVp.ne' (by exact_mod_cast this)
  have hX : NoUnderflow w := by
    unfold NoUnderflow
    have k1 : ∀ i, (249 / 250) ^ 2 * V i ^ 2 ≤ (w i).val ^ 2 := fun i => by
      rw [← sq_abs (V i), ← sq_abs (w i).val, ← mul_pow]
      refine pow_le_pow_left₀ (mul_nonneg (by norm_num) (abs_nonneg _)) ?_ 2
      have := abs_sub_abs_le_abs_sub (V i) (w i).val
      rw [abs_sub_comm] at this
      have := mul_le_mul_of_nonneg_right (show P.u ≤ 1 / 250 by linarith) (abs_nonneg (V i))
      linarith [hw i]
    have k2 : (249 / 250) ^ 2 * nsq V ≤ ∑ i, (w i).val ^ 2 := by
      rw [Fin.sum_univ_three]; unfold nsq; linarith [k1 0, k1 1, k1 2]
    have k3 := mul_le_mul_of_nonneg_left k2 hp.le
    push_cast
    linarith
  have l1 := C101_length_error P hε hs w hf hX
  rw [FltPts.realLen_vlen] at l1
  have e5 : (P.lenErr 3 : ℝ) = 5 * P.u := by unfold BinPar.lenErr; push_cast; ring
  rw [e5] at l1
  have hvw : vlen (vval w) = vlen fun i => (w i).val := rfl
  refine ⟨hL, l1.1, ?_, fun i => ?_⟩
  · have k1 := l1.2
    rw [hvw] at k1
    have k2 : |vlen (fun i => (w i).val) - vlen V| ≤ P.u * vlen V := by rw [abs_le]; constructor <;> linarith
    have k3 := abs_sub_le ((lengthG s w).val : ℝ) (vlen fun i => (w i).val) (vlen V)
    have k4 : 5 * P.u * (vlen fun i => (w i).val) ≤ 5 * P.u * ((1 + P.u) * vlen V) := mul_le_mul_of_nonneg_left n2 (by positivity)
    have k5 : (P.u : ℝ) * (P.u * vlen V) ≤ 1 / 250 * (P.u * vlen V) := mul_le_mul_of_nonneg_right (by linarith) (by positivity)
    linarith
  · have h2 := C101_normalize_error P (by norm_num) hε hs w hf hX i
    refine ⟨h2.1, ?_⟩
    rw [FltPts.realLen_vlen] at h2
    have e6 : (P.normErr 3 : ℝ) = 29 / 4 * P.u := by
      unfold BinPar.normErr BinPar.lenErr
      push_cast
      ring
    rw [e6] at h2
    have hwi := (Rat.cast_le (K := ℝ)).2 (hw i)
    push_cast at hwi
    exact dir_err hur hu' hL n1 n2 hwi h2.2

/-- A computed vector from the point `o + d t` to `p`. -/
theorem foot_comp' (hu : 250 * P.u ≤ 1) {o d t p : Flt P.fmt} (ho : o.isFinite) (hd : d.isFinite) (ht : t.isFinite) (hp : p.isFinite) {X : ℚ}
    (hX : 1 ≤ X) (oX : |o.val| ≤ X) (pX : |p.val| ≤ X) (dX : |d.val * t.val| ≤ 39 / 10 * X) (hbd : 1024 * X < P.bound) :
    (p - (o + d * t)).isFinite ∧ |(p - (o + d * t)).val - (p.val - (o.val + d.val * t.val))| ≤ 15 * P.u * X := by
  have hp0 := P.u_pos
  have he := P.eta_pos
  have he' := eta_small hu hX
  have uX : 0 < P.u * X := by positivity
  have uX' : 250 * (P.u * X) ≤ X := by nlinarith
  have i1 := is_mul (c := P.fl (d.val * t.val)) ⟨hd, rfl⟩ ⟨ht, rfl⟩ rfl (fl_lt_bound (by linarith))
  have e1 := P.fl_err_u (d.val * t.val)
  have e1' : |P.fl (d.val * t.val) - d.val * t.val| ≤ 391 / 100 * (P.u * X) := by
    have := mul_le_mul_of_nonneg_left dX hp0.le
    linarith
  set m := P.fl (d.val * t.val)
  have hm : |m| ≤ 392 / 100 * X := by
    have := abs_sub_abs_le_abs_sub m (d.val * t.val)
    linarith
  have s1 : |o.val + m| ≤ 492 / 100 * X := (abs_add_le _ _).trans (by linarith)
  have i2 := is_add (c := P.fl (o.val + m)) ⟨ho, rfl⟩ i1 rfl (fl_lt_bound (by linarith))
  have rm : P.Rep m := i1.2 ▸ (Flt.rep_val (d * t)).1
  have e2 := P.fl_add_err_u (Flt.rep_val o).1 rm
  have e2' : |P.fl (o.val + m) - (o.val + m)| ≤ 492 / 100 * (P.u * X) := by
    have := mul_le_mul_of_nonneg_left s1 hp0.le
    linarith
  set k := P.fl (o.val + m)
  have hk : |k| ≤ 494 / 100 * X := by
    have := abs_sub_abs_le_abs_sub k (o.val + m)
    linarith
  have s2 : |p.val - k| ≤ 594 / 100 * X := (abs_sub _ _).trans (by linarith)
  have i3 := is_sub (c := P.fl (p.val - k)) ⟨hp, rfl⟩ i2 rfl (fl_lt_bound (by linarith))
  have rk : P.Rep k := i2.2 ▸ (Flt.rep_val (o + d * t)).1
  have e3 := P.fl_sub_err_u (Flt.rep_val p).1 rk
  have e3' : |P.fl (p.val - k) - (p.val - k)| ≤ 594 / 100 * (P.u * X) := by
    have := mul_le_mul_of_nonneg_left s2 hp0.le
    linarith
  refine ⟨i3.1, ?_⟩
  rw [i3.2]
  have : P.fl (p.val - k) - (p.val - (o.val + d.val * t.val)) =
      (P.fl (p.val - k) - (p.val - k)) + ((o.val + m) - k) + (d.val * t.val - m) := by ring
  rw [this]
  refine (abs_add_three _ _ _).trans ?_
  rw [abs_sub_comm (o.val + m), abs_sub_comm (d.val * t.val)]
  linarith

/-- A computed squared length of a vector with errors of 97 units in its components. -/
theorem sqlen_err' (hu : 250 * P.u ≤ 1) {v : Vec (Flt P.fmt) 3} (hv : ∀ i, (v i).isFinite) {q : Vec ℚ 3} {X : ℚ} (hX : 1 ≤ X)
    (hq : ∀ i, |(v i).val - q i| ≤ 97 * P.u * X) (hQ : ∀ i, |q i| ≤ 2 * X) (hbd : 1024 * X ^ 2 < P.bound) :
    (squaredLength v).isFinite ∧ |(squaredLength v).val - nsq q| ≤ 1340 * P.u * X ^ 2 := by
  have hp := P.u_pos
  have hs : |q 0| + |q 1| + |q 2| ≤ 6 * X := by linarith [hQ 0, hQ 1, hQ 2]
  have hQ2 : nsq q ≤ 12 * X ^ 2 := by
    have k : ∀ i, q i ^ 2 ≤ 4 * X ^ 2 := fun i => by
      rw [← sq_abs]
      have := pow_le_pow_left₀ (abs_nonneg _) (hQ i) 2
      linarith
    unfold nsq
    linarith [k 0, k 1, k 2]
  have k1 := nsq_err (a := fun i => (v i).val) hq hs
  have uX : 0 < P.u * X ^ 2 := by positivity
  have uX' : 250 * (P.u * X ^ 2) ≤ X ^ 2 := by nlinarith [sq_nonneg X]
  have k2 : 97 * P.u * X * (2 * (6 * X) + 3 * (97 * P.u * X)) ≤ 1280 * (P.u * X ^ 2) := by
    have : 97 * P.u * X * (2 * (6 * X) + 3 * (97 * P.u * X)) = 1164 * (P.u * X ^ 2) + 28227 * P.u * (P.u * X ^ 2) := by ring
    rw [this]
    have : 28227 * P.u * (P.u * X ^ 2) ≤ 116 * (P.u * X ^ 2) := mul_le_mul_of_nonneg_right (by linarith) uX.le
    linarith
  have k3 := abs_le.1 (k1.trans k2)
  have hn : nsq (fun i => (v i).val) ≤ 172 / 10 * X ^ 2 := by linarith [k3.2]
  have hC : |(v 0).val * (v 0).val| + |(v 1).val * (v 1).val| + |(v 2).val * (v 2).val| ≤ 172 / 10 * X ^ 2 := by
    rw [abs_of_nonneg (mul_self_nonneg _), abs_of_nonneg (mul_self_nonneg _), abs_of_nonneg (mul_self_nonneg _)]
    unfold nsq at hn
    linarith
  have hX2 : 1 ≤ X ^ 2 := by nlinarith
  obtain ⟨f, e⟩ := dot_of hu hv hv hC hX2 (by linarith)
  refine ⟨f, ?_⟩
  have e' : |(squaredLength v).val - nsq (fun i => (v i).val)| ≤ 53 * (P.u * X ^ 2) := by
    refine le_trans (le_of_eq ?_) (e.trans ?_)
    · unfold squaredLength nsq
      congr 2
      ring
    · linarith
  have e2 := abs_le.1 e'
  rw [abs_le]
  constructor <;> linarith [e2.1, e2.2, k3.1, k3.2]

/-- The position of the projection, computed from a rounded vector and a rounded direction. -/
theorem scale_err {u η X x : ℝ} {w w' d f : Fin 3 → ℝ} (hu0 : 0 < u) (hu : 250 * u ≤ 1) (hη0 : 0 ≤ η) (hη : 500 * η ≤ u) (hX : 1 ≤ X)
    (hw : ∀ i, |w' i - w i| ≤ u * |w i|) (hwX : ∀ i, |w i| ≤ 2 * X) (hd : ∀ i, |d i - f i| ≤ 19 / 2 * u * |f i| + η)
    (hC : |w 0 * f 0| + |w 1 * f 1| + |w 2 * f 2| ≤ 347 / 100 * X)
    (hx : |x - (w' 0 * d 0 + w' 1 * d 1 + w' 2 * d 2)| ≤ 302 / 100 * u * (365 / 100 * X) + 1 / 100 * u * X) :
    |x - (w 0 * f 0 + w 1 * f 1 + w 2 * f 2)| ≤ 48 * u * X := by
  have uX : 0 < u * X := by positivity
  have k : ∀ i, |w' i * d i - w i * f i| ≤ 1054 / 100 * u * |w i * f i| + 201 / 100 * η * X := fun i => by
    have e : w' i * d i - w i * f i = w' i * (d i - f i) + (w' i - w i) * f i := by ring
    rw [e]
    refine (abs_add_le _ _).trans ?_
    rw [abs_mul, abs_mul, abs_mul]
    have hw' : |w' i| ≤ 251 / 250 * |w i| := by
      have := abs_sub_abs_le_abs_sub (w' i) (w i)
      have := mul_le_mul_of_nonneg_right (show u ≤ 1 / 250 by linarith) (abs_nonneg (w i))
      linarith [hw i]
    have k1 : |w' i| * |d i - f i| ≤ 251 / 250 * |w i| * (19 / 2 * u * |f i| + η) := mul_le_mul hw' (hd i) (abs_nonneg _) (by positivity)
    have k2 : |w' i - w i| * |f i| ≤ u * |w i| * |f i| := mul_le_mul_of_nonneg_right (hw i) (abs_nonneg _)
    have k3 : |w i| * η ≤ 2 * X * η := mul_le_mul_of_nonneg_right (hwX i) hη0
    have p : 0 ≤ u * (|w i| * |f i|) := by positivity
    have q : 0 ≤ X * η := by positivity
    linarith
  have e : x - (w 0 * f 0 + w 1 * f 1 + w 2 * f 2) = (x - (w' 0 * d 0 + w' 1 * d 1 + w' 2 * d 2)) +
      ((w' 0 * d 0 - w 0 * f 0) + (w' 1 * d 1 - w 1 * f 1) + (w' 2 * d 2 - w 2 * f 2)) := by ring
  rw [e]
  refine (abs_add_le _ _).trans ?_
  have k2 := abs_add_three (w' 0 * d 0 - w 0 * f 0) (w' 1 * d 1 - w 1 * f 1) (w' 2 * d 2 - w 2 * f 2)
  have k3 := mul_le_mul_of_nonneg_left hC hu0.le
  have k4 : η * X ≤ u / 500 * X := mul_le_mul_of_nonneg_right (by linarith) (by linarith)
  linarith [k 0, k 1, k 2]

/-- The size of the products of the rounded vectors. -/
theorem scale_size {u η X : ℝ} {w w' d f : Fin 3 → ℝ} (hu0 : 0 < u) (hu : 250 * u ≤ 1) (hη0 : 0 ≤ η) (hη : 500 * η ≤ u) (hX : 1 ≤ X)
    (hw : ∀ i, |w' i - w i| ≤ u * |w i|) (hwX : ∀ i, |w i| ≤ 2 * X) (hd : ∀ i, |d i - f i| ≤ 19 / 2 * u * |f i| + η)
    (hC : |w 0 * f 0| + |w 1 * f 1| + |w 2 * f 2| ≤ 347 / 100 * X) :
    |w' 0 * d 0| + |w' 1 * d 1| + |w' 2 * d 2| ≤ 365 / 100 * X := by
  have k : ∀ i, |w' i * d i| ≤ 1043 / 1000 * |w i * f i| + 201 / 100 * η * X := fun i => by
    rw [abs_mul, abs_mul]
    have hw' : |w' i| ≤ 251 / 250 * |w i| := by
      have := abs_sub_abs_le_abs_sub (w' i) (w i)
      have := mul_le_mul_of_nonneg_right (show u ≤ 1 / 250 by linarith) (abs_nonneg (w i))
      linarith [hw i]
    have hd' : |d i| ≤ 1038 / 1000 * |f i| + η := by
      have := abs_sub_abs_le_abs_sub (d i) (f i)
      have := mul_le_mul_of_nonneg_right (show u ≤ 1 / 250 by linarith) (abs_nonneg (f i))
      linarith [hd i]
    have k1 : |w' i| * |d i| ≤ 251 / 250 * |w i| * (1038 / 1000 * |f i| + η) := mul_le_mul hw' hd' (abs_nonneg _) (by positivity)
    have k3 : |w i| * η ≤ 2 * X * η := mul_le_mul_of_nonneg_right (hwX i) hη0
    have p : 0 ≤ |w i| * |f i| := by positivity
    have q : 0 ≤ X * η := by positivity
    linarith
  have k4 : η * X ≤ 1 / 125000 * X := mul_le_mul_of_nonneg_right (by linarith) (by linarith)
  linarith [k 0, k 1, k 2]

/-- A step along the rounded direction. -/
theorem step_err {u η X L t T d f : ℝ} (hu0 : 0 < u) (hu : 250 * u ≤ 1) (hη0 : 0 ≤ η) (hη : 500 * η ≤ u) (hX : 1 ≤ X)
    (hf : |f| ≤ 1) (hd : |d - f| ≤ 19 / 2 * u * |f| + η) (ht0 : 0 ≤ t) (ht : t ≤ (1 + 61 / 10 * u) * L) (hL : L ≤ 347 / 100 * X)
    (hT : |t - T| ≤ 48 * u * X) : |d * t - f * T| ≤ 82 * u * X ∧ |d * t| ≤ 39 / 10 * X := by
  have uX : 0 < u * X := by positivity
  have hL0 : 0 ≤ L := by
    by_contra hc
    rw [not_le] at hc
    have : (1 + 61 / 10 * u) * L < 0 := mul_neg_of_pos_of_neg (by linarith) hc
    linarith
  have ht2 : t ≤ 356 / 100 * X := by
    have : (1 + 61 / 10 * u) * L ≤ (1 + 61 / 2500) * (347 / 100 * X) := mul_le_mul (by linarith) hL hL0 (by norm_num)
    linarith
  have hd1 : |d - f| ≤ 9502 / 1000 * u := by
    have := mul_le_mul_of_nonneg_left hf hu0.le
    linarith
  have k1 : |d - f| * t ≤ 9502 / 1000 * u * (356 / 100 * X) := mul_le_mul hd1 ht2 ht0 (by positivity)
  constructor
  · have e : d * t - f * T = (d - f) * t + f * (t - T) := by ring
    rw [e]
    refine (abs_add_le _ _).trans ?_
    rw [abs_mul, abs_mul, abs_of_nonneg ht0]
    have k2 : |f| * |t - T| ≤ 1 * (48 * u * X) := mul_le_mul hf hT (abs_nonneg _) (by norm_num)
    linarith
  · rw [abs_mul, abs_of_nonneg ht0]
    have hd2 : |d| ≤ 104 / 100 := by
      have := abs_sub_abs_le_abs_sub d f
      linarith
    calc |d| * t ≤ 104 / 100 * (356 / 100 * X) := mul_le_mul hd2 ht2 ht0 (by norm_num)
      _ ≤ _ := by linarith

/-- The closest point of a segment. -/
theorem seg_min {c a l m : ℚ} (hc : 0 < c) (hl : l = min (max 0 (a / c)) 1) (hm0 : 0 ≤ m) (hm1 : m ≤ 1) :
    -2 * l * a + l ^ 2 * c ≤ -2 * m * a + m ^ 2 * c := by
  have ha : a = a / c * c := by field_simp
  set x := a / c
  have key : -2 * l * x + l ^ 2 ≤ -2 * m * x + m ^ 2 := by
    rcases le_total x 0 with h | h
    · rw [max_eq_left h, min_eq_left (by norm_num)] at hl
      rw [hl]
      nlinarith
    · rw [max_eq_right h] at hl
      rcases le_total x 1 with h1 | h1
      · rw [min_eq_left h1] at hl
        rw [hl]
        nlinarith [sq_nonneg (m - x)]
      · rw [min_eq_right h1] at hl
        rw [hl]
        nlinarith
  have := mul_le_mul_of_nonneg_right key hc.le
  rw [ha]
  linarith

end FltDist
end vm
