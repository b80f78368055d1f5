import Verif.Props.FltRayBBox
import Verif.Props.FltMat

/-!
# C109: intersection of rays and lines with planes in IEEE arithmetic

The parameter of the exact intersection with the plane through `distance * normal` is `N / D` with
`D = direction · normal` and `N = distance * normal · normal - origin · normal`.
-/

set_option linter.unusedSectionVars false
set_option linter.unusedSimpArgs false

namespace vm
variable {P : BinPar} {S : ℕ}

/-- The exact denominator. -/
def planeDen (d : Vec (Flt P.fmt) S) (p : Plane (Flt P.fmt) S) : ℚ := ∑ i, (d i).val * (p.normal i).val

/-- The exact numerator. -/
def planeNum (o : Vec (Flt P.fmt) S) (p : Plane (Flt P.fmt) S) : ℚ :=
  p.distance.val * ∑ i, (p.normal i).val ^ 2 - ∑ i, (o i).val * (p.normal i).val

/-- Error bound of the computed denominator. -/
def planeDenErr (d : Vec (Flt P.fmt) S) (p : Plane (Flt P.fmt) S) : ℚ :=
  ((1 + P.u) ^ S - 1) * (∑ i, |(d i).val * (p.normal i).val|) + S * (1 + P.u) ^ S * P.eta

/-- The sum of the absolute values of the terms of the numerator. -/
def planeNumAbs (o : Vec (Flt P.fmt) S) (p : Plane (Flt P.fmt) S) : ℚ :=
  ∑ i, |(p.normal i).val| * (|(o i).val| + |(p.normal i).val * p.distance.val|)

/-- Error bound of the computed numerator. -/
def planeNumErr (o : Vec (Flt P.fmt) S) (p : Plane (Flt P.fmt) S) : ℚ :=
  ((1 + P.u) ^ (S + 2) - 1) * planeNumAbs o p +
    (1 + P.u) ^ (S + 1) * P.eta * (∑ i, |(p.normal i).val|) + S * (1 + P.u) ^ S * P.eta

theorem planeNumAbs_nonneg (o : Vec (Flt P.fmt) S) (p : Plane (Flt P.fmt) S) : 0 ≤ planeNumAbs o p :=
  Finset.sum_nonneg fun _ _ => by positivity

theorem plane_den_err (d : Vec (Flt P.fmt) S) (p : Plane (Flt P.fmt) S) (h : (dot d p.normal).isFinite) :
    |(dot d p.normal).val - planeDen d p| ≤ planeDenErr d p := dot_err d p.normal h

theorem anchor_sub_apply (o : Vec (Flt P.fmt) S) (p : Plane (Flt P.fmt) S) (i : Fin S) :
    (p.anchor - o) i = p.normal i * p.distance - o i := rfl

theorem plane_num_err (o : Vec (Flt P.fmt) S) (p : Plane (Flt P.fmt) S) (h : (dot (p.anchor - o) p.normal).isFinite) :
    |(dot (p.anchor - o) p.normal).val - planeNum o p| ≤ planeNumErr o p := by
  have hu := P.u_pos
  have he := P.eta_pos
  have hfin := dot_finite_terms _ _ h
  have hw : ∀ i, |((p.anchor - o) i).val - ((p.normal i).val * p.distance.val - (o i).val)| ≤
      ((1 + P.u) ^ 2 - 1) * (|(o i).val| + |(p.normal i).val * p.distance.val|) + (1 + P.u) * P.eta := by
    intro i
    have h1 := (hfin i).1
    rw [anchor_sub_apply] at h1 ⊢
    obtain ⟨h2, h3⟩ := Flt.sub_finite h1
    rw [Flt.sub_val h1, Flt.mul_val h2]
    have h4 := coord_err (P := P) (Flt.rep_val (-(o i))).1 ((p.normal i).val * p.distance.val)
    rw [Flt.neg_val, abs_neg] at h4
    have e1 : -(o i).val + P.fl ((p.normal i).val * p.distance.val) = P.fl ((p.normal i).val * p.distance.val) - (o i).val := by ring
    have e2 : -(o i).val + (p.normal i).val * p.distance.val = (p.normal i).val * p.distance.val - (o i).val := by ring
    rwa [e1, e2] at h4
  have hd := dot_err _ _ h
  have h5 : |exactDot (p.anchor - o) p.normal - planeNum o p| ≤
      ((1 + P.u) ^ 2 - 1) * planeNumAbs o p + (1 + P.u) * P.eta * ∑ i, |(p.normal i).val| := by
    have e : exactDot (p.anchor - o) p.normal - planeNum o p =
        ∑ i, (((p.anchor - o) i).val - ((p.normal i).val * p.distance.val - (o i).val)) * (p.normal i).val := by
      unfold exactDot planeNum
      rw [Finset.mul_sum, ← Finset.sum_sub_distrib, ← Finset.sum_sub_distrib]
      exact Finset.sum_congr rfl fun i _ => by ring
    have e' : ((1 + P.u) ^ 2 - 1) * planeNumAbs o p + (1 + P.u) * P.eta * ∑ i, |(p.normal i).val| =
        ∑ i, (((1 + P.u) ^ 2 - 1) * (|(o i).val| + |(p.normal i).val * p.distance.val|) + (1 + P.u) * P.eta) * |(p.normal i).val| := by
      unfold planeNumAbs
      rw [Finset.mul_sum, Finset.mul_sum, ← Finset.sum_add_distrib]
      exact Finset.sum_congr rfl fun i _ => by ring
    rw [e, e']
    refine (Finset.abs_sum_le_sum_abs _ _).trans (Finset.sum_le_sum fun i _ => ?_)
    rw [abs_mul]
    exact mul_le_mul_of_nonneg_right (hw i) (abs_nonneg _)
  have h6 : absDot (p.anchor - o) p.normal ≤ (1 + P.u) ^ 2 * planeNumAbs o p + (1 + P.u) * P.eta * ∑ i, |(p.normal i).val| := by
    unfold absDot planeNumAbs
    rw [Finset.mul_sum, Finset.mul_sum, ← Finset.sum_add_distrib]
    refine Finset.sum_le_sum fun i _ => ?_
    rw [abs_mul]
    have h7 : |((p.anchor - o) i).val| ≤ (1 + P.u) ^ 2 * (|(o i).val| + |(p.normal i).val * p.distance.val|) + (1 + P.u) * P.eta := by
      have h8 := hw i
      have h9 := abs_sub_abs_le_abs_sub ((p.anchor - o) i).val ((p.normal i).val * p.distance.val - (o i).val)
      have h10 := abs_sub ((p.normal i).val * p.distance.val) (o i).val
      linarith
    have := mul_le_mul_of_nonneg_right h7 (abs_nonneg (p.normal i).val)
    linarith
  have hpow : (1 : ℚ) ≤ (1 + P.u) ^ S := one_le_pow₀ (by linarith)
  have h7 := mul_le_mul_of_nonneg_left h6 (show 0 ≤ (1 + P.u) ^ S - 1 by linarith)
  unfold dotErr at hd
  have h8 := abs_sub_le (dot (p.anchor - o) p.normal).val (exactDot (p.anchor - o) p.normal) (planeNum o p)
  have e : planeNumErr o p = ((1 + P.u) ^ S - 1) * ((1 + P.u) ^ 2 * planeNumAbs o p + (1 + P.u) * P.eta * ∑ i, |(p.normal i).val|)
      + S * (1 + P.u) ^ S * P.eta + (((1 + P.u) ^ 2 - 1) * planeNumAbs o p + (1 + P.u) * P.eta * ∑ i, |(p.normal i).val|) := by
    unfold planeNumErr; ring
  rw [e]
  linarith

theorem isZero_flt {x az : Flt P.fmt} (hx : x.isFinite) (haz : az.isFinite) (h0 : 0 ≤ az.val) :
    isZero x az = decide (|x.val| ≤ az.val) := by
  have e : x = Flt.round x.val := by
    obtain ⟨h1, h2⟩ := Flt.eq_fin hx
    conv_lhs => rw [h2]
    exact (BinPar.round_rep h1).symm
  have h1 : Cmp.le (vm.abs x) az = decide (|x.val| ≤ az.val) := by
    conv_lhs => rw [e]
    rw [Flt.abs_round, Flt.round_le haz]
    have hr : P.Rep |x.val| := by
      rcases abs_cases x.val with h | h
      · rw [h.1]; exact (Flt.rep_val x).1
      · rw [h.1, ← Flt.neg_val]; exact (Flt.rep_val (-x)).1
    rw [P.fl_rep hr]
  unfold isZero
  rw [h1]
  by_cases hz : Cmp.eq x 0 = true
  · have : x.val = 0 := by rw [eq_zero_val hx] at hz; exact of_decide_eq_true hz
    rw [hz, this, abs_zero, decide_eq_true h0]; rfl
  · rw [Bool.not_eq_true] at hz
    rw [hz]; rfl

/-- The plane parameter of the exact line: the residual of the computed quotient. -/
theorem plane_residual {N D Nc Dc t eN eD : ℚ} (hN : |Nc - N| ≤ eN) (hD : |Dc - D| ≤ eD) (h0 : Dc ≠ 0)
    (ht : |t - Nc / Dc| ≤ P.u * |Nc / Dc| + P.eta) :
    |t * D - N| ≤ |t| * eD + eN + P.u * (|N| + eN) + P.eta * (|D| + eD) := by
  have hu := P.u_pos
  have he := P.eta_pos
  have h1 : |Nc| ≤ |N| + eN := by have := abs_sub_abs_le_abs_sub Nc N; linarith
  have h2 : |Dc| ≤ |D| + eD := by have := abs_sub_abs_le_abs_sub Dc D; linarith
  have h3 : |t * Dc - Nc| ≤ P.u * |Nc| + P.eta * |Dc| := by
    have e : t * Dc - Nc = (t - Nc / Dc) * Dc := by field_simp
    rw [e, abs_mul]
    refine (mul_le_mul_of_nonneg_right ht (abs_nonneg _)).trans (le_of_eq ?_)
    rw [add_mul, mul_assoc, ← abs_mul, div_mul_cancel₀ _ h0]
  have e : t * D - N = (t * Dc - Nc) + (Nc - N) - t * (Dc - D) := by ring
  rw [e]
  have h4 := abs_sub ((t * Dc - Nc) + (Nc - N)) (t * (Dc - D))
  have h5 := abs_add_le (t * Dc - Nc) (Nc - N)
  have h6 : |t * (Dc - D)| ≤ |t| * eD := by rw [abs_mul]; exact mul_le_mul_of_nonneg_left hD (abs_nonneg _)
  have h7 := mul_le_mul_of_nonneg_left h1 hu.le
  have h8 := mul_le_mul_of_nonneg_left h2 he.le
  linarith

/-- Error bound of the plane equation at the computed parameter. -/
def planeHitErr (t : ℚ) (o d : Vec (Flt P.fmt) S) (p : Plane (Flt P.fmt) S) : ℚ :=
  |t| * planeDenErr d p + planeNumErr o p + P.u * (|planeNum o p| + planeNumErr o p) + P.eta * (|planeDen d p| + planeDenErr d p)

theorem plane_quot {o d : Vec (Flt P.fmt) S} {p : Plane (Flt P.fmt) S} {az t : Flt P.fmt} (haz : az.isFinite) (h0 : 0 ≤ az.val)
    (hd : (dot d p.normal).isFinite) (hz : isZero (dot d p.normal) az = false)
    (ht : dot (p.anchor - o) p.normal / dot d p.normal = t) (hf : t.isFinite) :
    |t.val * planeDen d p - planeNum o p| ≤ planeHitErr t.val o d p := by
  rw [isZero_flt hd haz h0] at hz
  have hne : (dot d p.normal).val ≠ 0 := by
    intro h
    rw [h, abs_zero] at hz
    exact of_decide_eq_false hz h0
  have hn := div_finite_left hd (ht ▸ hf)
  have e := fin_div_fin hn hd hne
  rw [ht] at e
  rw [e] at hf
  have hv : t.val = P.fl ((dot (p.anchor - o) p.normal).val / (dot d p.normal).val) := by rw [e, Flt.round_val hf]
  refine plane_residual (plane_num_err o p hn) (plane_den_err d p hd) hne ?_
  rw [hv]
  exact BinPar.fl_err_u _

/-- A finite parameter reported for a ray or a line satisfies the exact equation of the plane up to the stated error, where `N / D` is the exact
parameter. -/
theorem C109_residual (P : BinPar) {S : ℕ} (r : Ray (Flt P.fmt) S) (l : Line (Flt P.fmt) S) (p : Plane (Flt P.fmt) S) (az t : Flt P.fmt)
    (haz : az.isFinite) (h0 : 0 ≤ az.val) (hf : t.isFinite) :
    ((dot r.direction p.normal).isFinite → intersectRayPlane az r p = some t →
      |t.val * planeDen r.direction p - planeNum r.origin p| ≤ planeHitErr t.val r.origin r.direction p ∧ -az.val ≤ t.val) ∧
    ((dot l.direction p.normal).isFinite → intersectLinePlane az l p = some t →
      |t.val * planeDen l.direction p - planeNum l.point p| ≤ planeHitErr t.val l.point l.direction p) := by
  constructor
  · intro hd h
    unfold intersectRayPlane at h
    simp only at h
    rcases hz : isZero (dot r.direction p.normal) az with _ | _
    · rw [hz] at h
      simp only [Bool.false_eq_true, if_false] at h
      split_ifs at h with h1
      have h2 := Option.some.inj h
      refine ⟨plane_quot haz h0 hd hz h2 hf, ?_⟩
      rw [Bool.not_eq_true, h2, Flt.lt_val hf (Flt.neg_finite.2 haz), Flt.neg_val] at h1
      exact not_lt.1 (of_decide_eq_false h1)
    · rw [hz] at h
      simp at h
  · intro hd h
    unfold intersectLinePlane at h
    simp only at h
    rcases hz : isZero (dot l.direction p.normal) az with _ | _
    · rw [hz] at h
      simp only [Bool.false_eq_true, if_false] at h
      exact plane_quot haz h0 hd hz (Option.some.inj h) hf
    · rw [hz] at h
      simp at h

/-- The quotient of finite numbers compared with a threshold. -/
theorem rayPlane_eq {r : Ray (Flt P.fmt) S} {p : Plane (Flt P.fmt) S} {az : Flt P.fmt} (haz : az.isFinite) (h0 : 0 ≤ az.val)
    (hd : (dot r.direction p.normal).isFinite) (hn : (dot (p.anchor - r.origin) p.normal).isFinite) :
    intersectRayPlane az r p =
      if |(dot r.direction p.normal).val| ≤ az.val then none
      else if P.fl ((dot (p.anchor - r.origin) p.normal).val / (dot r.direction p.normal).val) < -az.val then none
      else some (Flt.round ((dot (p.anchor - r.origin) p.normal).val / (dot r.direction p.normal).val)) := by
  unfold intersectRayPlane
  simp only
  rw [isZero_flt hd haz h0]
  by_cases h : |(dot r.direction p.normal).val| ≤ az.val
  · rw [if_pos h, if_pos (decide_eq_true h)]
  · have hne : (dot r.direction p.normal).val ≠ 0 := by
      intro h'; rw [h', abs_zero] at h; exact h h0
    rw [if_neg h, decide_eq_false h, fin_div_fin hn hd hne, Flt.round_lt (Flt.neg_finite.2 haz), Flt.neg_val]
    simp only [Bool.false_eq_true, if_false, decide_eq_true_eq]

/-- A ray whose direction is parallel to the plane by more than the rounding error is reported parallel; a ray that clearly is not parallel and
whose exact parameter is not negative hits; and a ray whose exact parameter is clearly negative misses. -/
theorem C109_decision (P : BinPar) {S : ℕ} (r : Ray (Flt P.fmt) S) (p : Plane (Flt P.fmt) S) (az : Flt P.fmt) (haz : az.isFinite)
    (h0 : 0 ≤ az.val) (hd : (dot r.direction p.normal).isFinite) (hn : (dot (p.anchor - r.origin) p.normal).isFinite) :
    (|planeDen r.direction p| + planeDenErr r.direction p ≤ az.val → intersectRayPlane az r p = none) ∧
    (az.val + planeDenErr r.direction p < |planeDen r.direction p| →
      (0 ≤ planeNum r.origin p / planeDen r.direction p →
        2 * planeNumErr r.origin p ≤ az.val * (|planeDen r.direction p| - planeDenErr r.direction p) →
        ∃ t, intersectRayPlane az r p = some t ∧ Cmp.le (-az) t = true) ∧
      (planeNum r.origin p / planeDen r.direction p < 0 → 0 < az.val →
        2 * az.val * (|planeDen r.direction p| + planeDenErr r.direction p) + planeNumErr r.origin p ≤ |planeNum r.origin p| →
        intersectRayPlane az r p = none)) := by
  have hDe := plane_den_err r.direction p hd
  have hNe := plane_num_err r.origin p hn
  rw [rayPlane_eq haz h0 hd hn]
  set D := planeDen r.direction p
  set N := planeNum r.origin p
  set eD := planeDenErr r.direction p
  set eN := planeNumErr r.origin p
  set Dc := (dot r.direction p.normal).val
  set Nc := (dot (p.anchor - r.origin) p.normal).val
  have hazr : P.Rep (-az.val) := by rw [← Flt.neg_val]; exact (Flt.rep_val _).1
  have a1 := abs_sub_abs_le_abs_sub Dc D
  have a2 := abs_sub_abs_le_abs_sub D Dc
  rw [abs_sub_comm D Dc] at a2
  have heD : 0 ≤ eD := (abs_nonneg _).trans hDe
  have heN : 0 ≤ eN := (abs_nonneg _).trans hNe
  refine ⟨fun h => by rw [if_pos (by linarith)], fun h => ?_⟩
  have hDc : az.val < |Dc| := by linarith
  rw [if_neg (not_le.2 hDc)]
  have hDc0 : Dc ≠ 0 := by intro h'; rw [h', abs_zero] at hDc; linarith
  have hD0 : D ≠ 0 := by intro h'; rw [h', abs_zero] at h; linarith
  have hsign : (0 < D ∧ 0 < Dc) ∨ (D < 0 ∧ Dc < 0) := by
    rcases lt_or_gt_of_ne hD0 with h1 | h1
    · right; refine ⟨h1, ?_⟩
      rw [abs_of_neg h1] at h
      have := (abs_le.1 hDe).2; linarith
    · left; refine ⟨h1, ?_⟩
      rw [abs_of_pos h1] at h
      have := (abs_le.1 hDe).1; linarith
  obtain ⟨k1, k2⟩ := abs_le.1 hNe
  constructor
  · intro hT hm
    have hq : -az.val ≤ Nc / Dc := by
      rcases hsign with ⟨h1, h2⟩ | ⟨h1, h2⟩
      · rw [le_div_iff₀ h2]
        have hN : 0 ≤ N := by
          have := mul_nonneg hT h1.le; rwa [div_mul_cancel₀ _ hD0] at this
        rw [abs_of_pos h1] at hm h
        have h3 : D - eD ≤ Dc := by have := (abs_le.1 hDe).1; linarith
        have := mul_le_mul_of_nonneg_left h3 h0
        linarith
      · rw [le_div_iff_of_neg h2]
        have hN : N ≤ 0 := by
          have := mul_nonpos_of_nonneg_of_nonpos hT h1.le; rwa [div_mul_cancel₀ _ hD0] at this
        rw [abs_of_neg h1] at hm h
        have h3 : -D - eD ≤ -Dc := by have := (abs_le.1 hDe).2; linarith
        have := mul_le_mul_of_nonneg_left h3 h0
        linarith
    have hfl : -az.val ≤ P.fl (Nc / Dc) := by
      have := P.fl_mono hq; rwa [P.fl_rep hazr] at this
    refine ⟨_, if_neg (not_lt.2 hfl), ?_⟩
    rw [Flt.le_round (Flt.neg_finite.2 haz), Flt.neg_val]
    exact decide_eq_true hfl
  · intro hT hpos hm
    have hq : Nc / Dc ≤ -(2 * az.val) := by
      rcases hsign with ⟨h1, h2⟩ | ⟨h1, h2⟩
      · rw [div_le_iff₀ h2]
        have hN : N < 0 := by
          have := mul_neg_of_neg_of_pos hT h1; rwa [div_mul_cancel₀ _ hD0] at this
        rw [abs_of_neg hN] at hm
        rw [abs_of_pos h1] at hm
        have h3 : Dc ≤ D + eD := by have := (abs_le.1 hDe).2; linarith
        have := mul_le_mul_of_nonneg_left h3 (show 0 ≤ 2 * az.val by linarith)
        linarith
      · rw [div_le_iff_of_neg h2]
        have hN : 0 < N := by
          have := mul_pos_of_neg_of_neg hT h1; rwa [div_mul_cancel₀ _ hD0] at this
        rw [abs_of_pos hN] at hm
        rw [abs_of_neg h1] at hm
        have h3 : -Dc ≤ -D + eD := by have := (abs_le.1 hDe).1; linarith
        have := mul_le_mul_of_nonneg_left h3 (show 0 ≤ 2 * az.val by linarith)
        linarith
    have hr2 : P.Rep (-(2 * az.val)) := by
      obtain ⟨m, e, h1, h2, h3⟩ := hazr
      refine ⟨m, e + 1, ?_, h2, by omega⟩
      rw [zpow_add_one₀ (by norm_num), ← mul_assoc, ← h1]; ring
    have hfl : P.fl (Nc / Dc) ≤ -(2 * az.val) := by
      have := P.fl_mono hq; rwa [P.fl_rep hr2] at this
    rw [if_pos (by linarith)]

/-! ### Axis aligned planes -/

/-- The unit vector of axis `k`. -/
def axisVec (P : BinPar) {S : ℕ} (k : Fin S) : Vec (Flt P.fmt) S := fun i => if i = k then 1 else 0

theorem dot_axisVec {v : Vec (Flt P.fmt) S} {k : Fin S} (h : ∀ i, i ≠ k → (v i).isFinite) : dot v (axisVec P k) = v k := by
  refine (fsum_single (fun i => v i * axisVec P k i) k fun j hj => ?_).trans ?_
  · show v j * (if j = k then 1 else 0) = 0
    rw [if_neg hj, Flt.mul_zero_fin (h j hj)]
  · show v k * (if k = k then 1 else 0) = v k
    rw [if_pos rfl, Flt.mul_one']

/-- For a plane orthogonal to an axis the parameter is the correctly rounded quotient of the correctly rounded difference
`distance - origin[k]` and `direction[k]`, and the decisions are taken on these numbers; nothing else enters. -/
theorem C109_axis_plane (P : BinPar) {S : ℕ} (r : Ray (Flt P.fmt) S) (l : Line (Flt P.fmt) S) (k : Fin S) (dist az : Flt P.fmt)
    (ho : ∀ i, (r.origin i).isFinite) (hd : ∀ i, (r.direction i).isFinite) (hlp : ∀ i, (l.point i).isFinite)
    (hld : ∀ i, (l.direction i).isFinite) (hdist : dist.isFinite) :
    intersectRayPlane az r ⟨dist, axisVec P k⟩ =
      (if isZero (r.direction k) az then none
       else if Cmp.lt ((dist - r.origin k) / r.direction k) (-az) then none
       else some ((dist - r.origin k) / r.direction k)) ∧
    intersectLinePlane az l ⟨dist, axisVec P k⟩ =
      (if isZero (l.direction k) az then none else some ((dist - l.point k) / l.direction k)) := by
  have hw : ∀ o : Vec (Flt P.fmt) S, (∀ i, (o i).isFinite) →
      dot (vscale (axisVec P k) dist - o) (axisVec P k) = dist - o k := by
    intro o ho
    rw [dot_axisVec]
    · show (if k = k then 1 else 0) * dist - o k = _
      rw [if_pos rfl, Flt.one_mul']
    · intro i hi
      show ((if i = k then 1 else 0) * dist - o i).isFinite
      rw [if_neg hi, Flt.zero_mul_fin hdist, Flt.sub_eq Flt.zero_finite (ho i), Flt.zero_val, zero_sub, ← Flt.neg_val,
        BinPar.round_rep (Flt.rep_val (-(o i)))]
      trivial
  constructor
  · unfold intersectRayPlane Plane.anchor
    simp only
    rw [dot_axisVec (fun i _ => hd i), hw _ ho]
  · unfold intersectLinePlane
    simp only
    rw [dot_axisVec (fun i _ => hld i), hw _ hlp]

/-! ### Double precision -/

theorem planeNum_le (o : Vec (Flt P.fmt) S) (p : Plane (Flt P.fmt) S) : |planeNum o p| ≤ planeNumAbs o p := by
  unfold planeNum planeNumAbs
  rw [Finset.mul_sum, ← Finset.sum_sub_distrib]
  refine (Finset.abs_sum_le_sum_abs _ _).trans (Finset.sum_le_sum fun i _ => ?_)
  have e : p.distance.val * (p.normal i).val ^ 2 - (o i).val * (p.normal i).val =
      (p.normal i).val * ((p.normal i).val * p.distance.val - (o i).val) := by ring
  rw [e, abs_mul]
  refine mul_le_mul_of_nonneg_left ?_ (abs_nonneg _)
  have := abs_sub ((p.normal i).val * p.distance.val) (o i).val
  linarith

/-- The numerator is finite if the terms are not close to the overflow threshold. -/
theorem plane_num_finite (o : Vec (Flt P.fmt) S) (p : Plane (Flt P.fmt) S) (ho : ∀ i, (o i).isFinite) (hn : ∀ i, (p.normal i).isFinite)
    (hp : p.distance.isFinite)
    (hb : ∀ i, (1 + P.u) ^ 2 * (|(o i).val| + |(p.normal i).val * p.distance.val|) + (1 + P.u) * P.eta < P.bound)
    (hs : planeNumAbs o p + planeNumErr o p < P.bound) : (dot (p.anchor - o) p.normal).isFinite := by
  have hu := P.u_pos
  have he := P.eta_pos
  have hw : ∀ i, ((p.anchor - o) i).isFinite ∧
      |((p.anchor - o) i).val| ≤ (1 + P.u) ^ 2 * (|(o i).val| + |(p.normal i).val * p.distance.val|) + (1 + P.u) * P.eta := by
    intro i
    have h0 := hb i
    have h1 := BinPar.fl_err_u (P := P) ((p.normal i).val * p.distance.val)
    have h2 : |P.fl ((p.normal i).val * p.distance.val)| ≤ (1 + P.u) * |(p.normal i).val * p.distance.val| + P.eta := by
      have := abs_sub_abs_le_abs_sub (P.fl ((p.normal i).val * p.distance.val)) ((p.normal i).val * p.distance.val)
      linarith
    have hm : (p.normal i * p.distance).isFinite := by
      rw [Flt.mul_eq (hn i) hp]
      refine Flt.round_finite.2 (lt_of_le_of_lt h2 (lt_of_le_of_lt ?_ h0))
      nlinarith [abs_nonneg (o i).val, abs_nonneg ((p.normal i).val * p.distance.val),
        mul_nonneg hu.le (abs_nonneg ((p.normal i).val * p.distance.val)),
        mul_nonneg (mul_nonneg hu.le hu.le) (abs_nonneg ((p.normal i).val * p.distance.val)), mul_nonneg hu.le he.le,
        mul_nonneg (sq_nonneg (1 + P.u)) (abs_nonneg (o i).val)]
    have h4 := coord_err (P := P) (Flt.rep_val (-(o i))).1 ((p.normal i).val * p.distance.val)
    rw [Flt.neg_val, abs_neg] at h4
    have e1 : -(o i).val + P.fl ((p.normal i).val * p.distance.val) = P.fl ((p.normal i).val * p.distance.val) - (o i).val := by ring
    have e2 : -(o i).val + (p.normal i).val * p.distance.val = (p.normal i).val * p.distance.val - (o i).val := by ring
    rw [e1, e2] at h4
    have h5 : |P.fl (P.fl ((p.normal i).val * p.distance.val) - (o i).val)| ≤
        (1 + P.u) ^ 2 * (|(o i).val| + |(p.normal i).val * p.distance.val|) + (1 + P.u) * P.eta := by
      have h9 := abs_sub_abs_le_abs_sub (P.fl (P.fl ((p.normal i).val * p.distance.val) - (o i).val))
        ((p.normal i).val * p.distance.val - (o i).val)
      have h10 := abs_sub ((p.normal i).val * p.distance.val) (o i).val
      linarith
    have hf : ((p.anchor - o) i).isFinite := by
      rw [anchor_sub_apply, Flt.sub_eq hm (ho i), Flt.mul_val hm]
      exact Flt.round_finite.2 (lt_of_le_of_lt h5 h0)
    refine ⟨hf, ?_⟩
    rw [anchor_sub_apply] at hf ⊢
    rw [Flt.sub_val hf, Flt.mul_val hm]
    exact h5
  refine dot_finite _ _ (fun i => (hw i).1) hn (lt_of_le_of_lt ?_ hs)
  have h6 : absDot (p.anchor - o) p.normal ≤ (1 + P.u) ^ 2 * planeNumAbs o p + (1 + P.u) * P.eta * ∑ i, |(p.normal i).val| := by
    unfold absDot planeNumAbs
    rw [Finset.mul_sum, Finset.mul_sum, ← Finset.sum_add_distrib]
    refine Finset.sum_le_sum fun i _ => ?_
    rw [abs_mul]
    have := mul_le_mul_of_nonneg_right (hw i).2 (abs_nonneg (p.normal i).val)
    linarith
  have hpow : (1 : ℚ) ≤ (1 + P.u) ^ S := one_le_pow₀ (by linarith)
  have h7 := mul_le_mul_of_nonneg_left h6 (show 0 ≤ (1 + P.u) ^ S by linarith)
  have e : planeNumAbs o p + planeNumErr o p =
      (1 + P.u) ^ S * ((1 + P.u) ^ 2 * planeNumAbs o p + (1 + P.u) * P.eta * ∑ i, |(p.normal i).val|) + S * (1 + P.u) ^ S * P.eta := by
    unfold planeNumErr; ring
  rw [e]
  unfold dotErr
  linarith

/-- For `double`, coordinates of at most `2¹⁷`, planes at a distance of at most `2¹⁹` and directions and normals with components of at most one, a
reported parameter is finite and satisfies the exact equation of the plane up to `2·10⁻¹⁵ |t| + 2·10⁻⁹`; a ray with `|D| ≥ 0.0011` and an exact
parameter that is not negative is always reported to hit. -/
theorem C109_double (r : Ray (Flt binary64.fmt) 3) (p : Plane (Flt binary64.fmt) 3)
    (ho : ∀ i, (r.origin i).isFinite ∧ |(r.origin i).val| ≤ 2 ^ 17) (hd : ∀ i, (r.direction i).isFinite ∧ |(r.direction i).val| ≤ 1)
    (hn : ∀ i, (p.normal i).isFinite ∧ |(p.normal i).val| ≤ 1) (hp : p.distance.isFinite ∧ |p.distance.val| ≤ 2 ^ 19) (D N : ℚ)
    (hD : D = ∑ i, (r.direction i).val * (p.normal i).val)
    (hN : N = p.distance.val * ∑ i, (p.normal i).val ^ 2 - ∑ i, (r.origin i).val * (p.normal i).val) :
    (∀ t, intersectRayPlane (Flt.round (1 / 10 ^ 3)) r p = some t →
      t.isFinite ∧ |t.val * D - N| ≤ 2 / 10 ^ 15 * |t.val| + 2 / 10 ^ 9) ∧
    (11 / 10 ^ 4 ≤ |D| → 0 ≤ N / D → ∃ t, intersectRayPlane (Flt.round (1 / 10 ^ 3)) r p = some t) := by
  have hu : binary64.u = 1 / 2 ^ 53 := by
    show (2 : ℚ) ^ (-((53 : ℕ) : ℤ)) = _
    rw [zpow_neg, zpow_natCast, one_div]
  have he : binary64.eta ≤ 1 / 2 ^ 100 := by
    show (2 : ℚ) ^ ((-1074 : ℤ) - 1) ≤ _
    have : (2 : ℚ) ^ ((-1074 : ℤ) - 1) ≤ 2 ^ (-((100 : ℕ) : ℤ)) := zpow_le_zpow_right₀ (by norm_num) (by norm_num)
    rwa [zpow_neg, zpow_natCast, ← one_div] at this
  have he0 := binary64.eta_pos
  have hbound : (2 : ℚ) ^ 100 ≤ binary64.bound := by
    show (2 : ℚ) ^ 100 ≤ 2 ^ (((53 : ℕ) : ℤ) + 971)
    have : (2 : ℚ) ^ ((100 : ℕ) : ℤ) ≤ 2 ^ (((53 : ℕ) : ℤ) + 971) := zpow_le_zpow_right₀ (by norm_num) (by norm_num)
    rwa [zpow_natCast] at this
  have hazv : |binary64.fl (1 / 10 ^ 3) - 1 / 10 ^ 3| ≤ 1 / 10 ^ 6 := by
    refine (BinPar.fl_err_u (P := binary64) _).trans ?_
    rw [hu, abs_of_pos (by norm_num)]
    have : (1 / 2 ^ 53 : ℚ) * (1 / 10 ^ 3) + 1 / 2 ^ 100 ≤ 1 / 10 ^ 6 := by norm_num
    linarith
  obtain ⟨z1, z2⟩ := abs_le.1 hazv
  have haz : (Flt.round (1 / 10 ^ 3) : Flt binary64.fmt).isFinite := by
    rw [Flt.round_finite, abs_lt]
    norm_num at z1 z2 hbound ⊢
    constructor <;> linarith
  have hzv := Flt.round_val haz
  have hz0 : 0 ≤ (Flt.round (1 / 10 ^ 3) : Flt binary64.fmt).val := by rw [hzv]; norm_num at z1 ⊢; linarith
  have hA : planeNumAbs r.origin p ≤ 3 * (2 ^ 17 + 2 ^ 19) := by
    have : planeNumAbs r.origin p ≤ ∑ _i : Fin 3, ((2 : ℚ) ^ 17 + 2 ^ 19) := by
      refine Finset.sum_le_sum fun i _ => ?_
      have h1 := (hn i).2
      have h2 := (ho i).2
      have h3 : |(p.normal i).val * p.distance.val| ≤ 2 ^ 19 := by
        rw [abs_mul]
        have := mul_le_mul h1 hp.2 (abs_nonneg _) (by norm_num)
        rwa [one_mul] at this
      have := mul_le_mul h1 (add_le_add h2 h3) (by positivity) (by norm_num)
      rwa [one_mul] at this
    rw [Finset.sum_const, Finset.card_fin, nsmul_eq_mul] at this
    exact this
  have hA0 := planeNumAbs_nonneg r.origin p
  have hns : ∑ i, |(p.normal i).val| ≤ 3 := by
    have : ∑ i, |(p.normal i).val| ≤ ∑ _i : Fin 3, (1 : ℚ) := Finset.sum_le_sum fun i _ => (hn i).2
    rwa [Finset.sum_const, Finset.card_fin, nsmul_eq_mul, mul_one] at this
  have hdp : ∀ i, |(r.direction i).val * (p.normal i).val| ≤ 1 := by
    intro i
    rw [abs_mul]
    have := mul_le_mul (hd i).2 (hn i).2 (abs_nonneg _) (by norm_num)
    rwa [mul_one] at this
  have hds : ∑ i, |(r.direction i).val * (p.normal i).val| ≤ 3 := by
    have : ∑ i, |(r.direction i).val * (p.normal i).val| ≤ ∑ _i : Fin 3, (1 : ℚ) := Finset.sum_le_sum fun i _ => hdp i
    rwa [Finset.sum_const, Finset.card_fin, nsmul_eq_mul, mul_one] at this
  have hDabs : |D| ≤ 3 := by rw [hD]; exact (Finset.abs_sum_le_sum_abs _ _).trans hds
  have hNabs : |N| ≤ 3 * (2 ^ 17 + 2 ^ 19) := by rw [hN]; exact (planeNum_le r.origin p).trans hA
  have hDE : planeDenErr r.direction p ≤ 11 / 10 ^ 16 := by
    unfold planeDenErr
    rw [hu]
    push_cast
    have h1 : ((1 + 1 / 2 ^ 53 : ℚ) ^ 3 - 1) * (∑ i, |(r.direction i).val * (p.normal i).val|) ≤ ((1 + 1 / 2 ^ 53) ^ 3 - 1) * 3 :=
      mul_le_mul_of_nonneg_left hds (by norm_num)
    have h2 : (3 : ℚ) * (1 + 1 / 2 ^ 53) ^ 3 * binary64.eta ≤ 3 * (1 + 1 / 2 ^ 53) ^ 3 * (1 / 2 ^ 100) :=
      mul_le_mul_of_nonneg_left he (by norm_num)
    have h3 : ((1 + 1 / 2 ^ 53 : ℚ) ^ 3 - 1) * 3 + 3 * (1 + 1 / 2 ^ 53) ^ 3 * (1 / 2 ^ 100) ≤ 11 / 10 ^ 16 := by norm_num
    linarith
  have hNE : planeNumErr r.origin p ≤ 12 / 10 ^ 10 := by
    unfold planeNumErr
    rw [hu]
    push_cast
    have h1 : ((1 + 1 / 2 ^ 53 : ℚ) ^ (3 + 2) - 1) * planeNumAbs r.origin p ≤ ((1 + 1 / 2 ^ 53) ^ (3 + 2) - 1) * (3 * (2 ^ 17 + 2 ^ 19)) :=
      mul_le_mul_of_nonneg_left hA (by norm_num)
    have h2 : (3 : ℚ) * (1 + 1 / 2 ^ 53) ^ 3 * binary64.eta ≤ 3 * (1 + 1 / 2 ^ 53) ^ 3 * (1 / 2 ^ 100) :=
      mul_le_mul_of_nonneg_left he (by norm_num)
    have h3 : (1 + 1 / 2 ^ 53 : ℚ) ^ (3 + 1) * binary64.eta * (∑ i, |(p.normal i).val|) ≤
        (1 + 1 / 2 ^ 53) ^ (3 + 1) * (1 / 2 ^ 100) * 3 :=
      mul_le_mul (mul_le_mul_of_nonneg_left he (by norm_num)) hns (Finset.sum_nonneg fun _ _ => abs_nonneg _) (by norm_num)
    have h4 : ((1 + 1 / 2 ^ 53 : ℚ) ^ (3 + 2) - 1) * (3 * (2 ^ 17 + 2 ^ 19)) + (1 + 1 / 2 ^ 53) ^ (3 + 1) * (1 / 2 ^ 100) * 3 +
        3 * (1 + 1 / 2 ^ 53) ^ 3 * (1 / 2 ^ 100) ≤ 12 / 10 ^ 10 := by norm_num
    linarith
  have hDf : (dot r.direction p.normal).isFinite := by
    refine dot_finite _ _ (fun i => (hd i).1) (fun i => (hn i).1) ?_
    have h1 : absDot r.direction p.normal ≤ 3 := hds
    have h2 : dotErr binary64 3 (absDot r.direction p.normal) ≤ 11 / 10 ^ 16 := hDE
    have : (3 + 11 / 10 ^ 16 : ℚ) < 2 ^ 100 := by norm_num
    linarith
  have hNf : (dot (p.anchor - r.origin) p.normal).isFinite := by
    refine plane_num_finite _ _ (fun i => (ho i).1) (fun i => (hn i).1) hp.1 (fun i => ?_) ?_
    · have h1 := (hn i).2
      have h2 := (ho i).2
      have h3 : |(p.normal i).val * p.distance.val| ≤ 2 ^ 19 := by
        rw [abs_mul]
        have := mul_le_mul h1 hp.2 (abs_nonneg _) (by norm_num)
        rwa [one_mul] at this
      rw [hu]
      have h4 : (1 + 1 / 2 ^ 53 : ℚ) ^ 2 * (|(r.origin i).val| + |(p.normal i).val * p.distance.val|) ≤
          (1 + 1 / 2 ^ 53) ^ 2 * (2 ^ 17 + 2 ^ 19) := mul_le_mul_of_nonneg_left (add_le_add h2 h3) (by norm_num)
      have h5 : (1 + 1 / 2 ^ 53 : ℚ) * binary64.eta ≤ (1 + 1 / 2 ^ 53) * (1 / 2 ^ 100) := mul_le_mul_of_nonneg_left he (by norm_num)
      have : ((1 + 1 / 2 ^ 53) ^ 2 * (2 ^ 17 + 2 ^ 19) + (1 + 1 / 2 ^ 53) * (1 / 2 ^ 100) : ℚ) < 2 ^ 100 := by norm_num
      linarith
    · have : (3 * (2 ^ 17 + 2 ^ 19) + 12 / 10 ^ 10 : ℚ) < 2 ^ 100 := by norm_num
      linarith
  have hDe := plane_den_err r.direction p hDf
  have hNe := plane_num_err r.origin p hNf
  have hD' : planeDen r.direction p = D := hD.symm
  have hN' : planeNum r.origin p = N := hN.symm
  constructor
  · intro t ht
    have hf : t.isFinite := by
      rw [rayPlane_eq haz hz0 hDf hNf] at ht
      split_ifs at ht with h1 h2
      rw [← Option.some.inj ht]
      rw [Flt.round_finite]
      have h3 : |(dot (p.anchor - r.origin) p.normal).val / (dot r.direction p.normal).val| ≤ 2 ^ 40 := by
        rw [abs_div, div_le_iff₀ (lt_of_le_of_lt hz0 (not_le.1 h1))]
        have h4 : |(dot (p.anchor - r.origin) p.normal).val| ≤ 2 ^ 21 := by
          have := abs_sub_abs_le_abs_sub (dot (p.anchor - r.origin) p.normal).val (planeNum r.origin p)
          rw [hN'] at this hNe
          norm_num at hNabs hNE ⊢
          linarith
        have h5 : (1 / 2000 : ℚ) ≤ |(dot r.direction p.normal).val| := by
          have := not_le.1 h1
          rw [hzv] at this
          norm_num at z1 this ⊢
          linarith
        norm_num at h4 ⊢
        linarith
      have h6 := BinPar.fl_err_u (P := binary64) ((dot (p.anchor - r.origin) p.normal).val / (dot r.direction p.normal).val)
      have h7 := abs_sub_abs_le_abs_sub (binary64.fl ((dot (p.anchor - r.origin) p.normal).val / (dot r.direction p.normal).val))
        ((dot (p.anchor - r.origin) p.normal).val / (dot r.direction p.normal).val)
      rw [hu] at h6
      norm_num at h3 h6 he hbound ⊢
      linarith
    refine ⟨hf, ?_⟩
    have h := (((C109_residual binary64 r ⟨0, 0⟩ p _ t haz hz0 hf).1 hDf ht).1)
    rw [hD', hN'] at h
    refine h.trans ?_
    unfold planeHitErr
    rw [hD', hN', hu]
    have h1 := mul_le_mul_of_nonneg_left hDE (abs_nonneg t.val)
    have h2 : (1 / 2 ^ 53 : ℚ) * (|N| + planeNumErr r.origin p) ≤ 1 / 2 ^ 53 * (3 * (2 ^ 17 + 2 ^ 19) + 12 / 10 ^ 10) :=
      mul_le_mul_of_nonneg_left (add_le_add hNabs hNE) (by norm_num)
    have h3 : binary64.eta * (|D| + planeDenErr r.direction p) ≤ 1 / 2 ^ 100 * (3 + 11 / 10 ^ 16) := by
      have h8 : 0 ≤ planeDenErr r.direction p := (abs_nonneg _).trans hDe
      exact mul_le_mul he (add_le_add hDabs hDE) (by positivity) (by norm_num)
    have h4 : (12 / 10 ^ 10 + 1 / 2 ^ 53 * (3 * (2 ^ 17 + 2 ^ 19) + 12 / 10 ^ 10) + 1 / 2 ^ 100 * (3 + 11 / 10 ^ 16) : ℚ) ≤ 2 / 10 ^ 9 := by
      norm_num
    have h5 : |t.val| * (11 / 10 ^ 16) ≤ 2 / 10 ^ 15 * |t.val| := by
      have : (11 / 10 ^ 16 : ℚ) ≤ 2 / 10 ^ 15 := by norm_num
      have := mul_le_mul_of_nonneg_right this (abs_nonneg t.val)
      linarith
    linarith
  · intro h1 h2
    have h := ((C109_decision binary64 r p _ haz hz0 hDf hNf).2 (by
      rw [hD', hzv]; norm_num at z2 h1 hDE ⊢; linarith)).1 (by rw [hD', hN']; exact h2) (by
      rw [hD', hzv]
      have h5 : (1 / 2000 : ℚ) * (1 / 2000) ≤ binary64.fl (1 / 10 ^ 3) * (|D| - planeDenErr r.direction p) := by
        refine mul_le_mul ?_ ?_ (by norm_num) ?_ <;> norm_num at z1 h1 hDE ⊢ <;> linarith
      norm_num at h5 hNE ⊢
      linarith)
    exact ⟨_, h.choose_spec.1⟩

/-! ### Concrete cases -/

/-- A ray from (2, 1, -3) in the direction (1/2, -1/2, 1). -/
def rayS : Ray (Flt binary64.fmt) 3 := ⟨![dbl 2 0, dbl 1 0, dbl (-3) 0], ![dbl 1 (-1), dbl (-1) (-1), dbl 1 0]⟩

/-- A plane with the normal (1/2, 1/2, 1/2). -/
def planeS : Plane (Flt binary64.fmt) 3 := ⟨dbl 4 0, ![dbl 1 (-1), dbl 1 (-1), dbl 1 (-1)]⟩

theorem dbl_val (m e : ℤ) (hm : |m| ≤ 4) (he : -1074 ≤ e) (he' : e ≤ 1021) : (dbl m e hm he he').val = m * 2 ^ e := rfl

theorem rayS_ok : (∀ i, (rayS.origin i).isFinite ∧ |(rayS.origin i).val| ≤ 2 ^ 17) ∧
    (∀ i, (rayS.direction i).isFinite ∧ |(rayS.direction i).val| ≤ 1) ∧
    (∀ i, (planeS.normal i).isFinite ∧ |(planeS.normal i).val| ≤ 1) ∧ (planeS.distance.isFinite ∧ |planeS.distance.val| ≤ 2 ^ 19) := by
  refine ⟨fun i => ?_, fun i => ?_, fun i => ?_, trivial, ?_⟩
  · fin_cases i <;> refine ⟨trivial, ?_⟩ <;> simp [rayS, dbl_val] <;> norm_num
  · fin_cases i <;> refine ⟨trivial, ?_⟩ <;> simp [rayS, dbl_val] <;> norm_num
  · fin_cases i <;> refine ⟨trivial, ?_⟩ <;> simp [planeS, dbl_val] <;> norm_num
  · norm_num [planeS, dbl_val]

theorem rayS_den : planeDen rayS.direction planeS = 1 / 2 := by
  simp [planeDen, rayS, planeS, Fin.sum_univ_three, dbl_val]

theorem rayS_num : planeNum rayS.origin planeS = 3 := by
  simp [planeNum, rayS, planeS, Fin.sum_univ_three, dbl_val]; norm_num

/-- The hypotheses of `C109_double` are met, and the ray hits near the parameter 6. -/
theorem rayS_hits : ∃ t, intersectRayPlane (Flt.round (1 / 10 ^ 3)) rayS planeS = some t ∧ t.isFinite ∧ |t.val * (1 / 2) - 3| ≤
    2 / 10 ^ 15 * |t.val| + 2 / 10 ^ 9 := by
  obtain ⟨h1, h2, h3, h4⟩ := rayS_ok
  have h := C109_double rayS planeS h1 h2 h3 h4 (1 / 2) 3 rayS_den.symm rayS_num.symm
  obtain ⟨t, ht⟩ := h.2 (by rw [abs_of_pos (by norm_num)]; norm_num) (by norm_num)
  exact ⟨t, ht, h.1 t ht⟩

theorem rayS_dot_finite : (dot rayS.direction planeS.normal).isFinite := by
  refine dot_finite _ _ (fun i => (rayS_ok.2.1 i).1) (fun i => (rayS_ok.2.2.1 i).1) ?_
  have h1 : absDot rayS.direction planeS.normal = 1 := by
    simp [absDot, rayS, planeS, Fin.sum_univ_three, dbl_val]; norm_num
  have hu := binary64.u_pos
  have hu2 := binary64.u_le
  have he : binary64.eta ≤ 1 := zpow_le_one_of_nonpos₀ (a := (2 : ℚ)) (by norm_num) (show (-1074 : ℤ) - 1 ≤ 0 by norm_num)
  have he0 := binary64.eta_pos
  have hb : (8 : ℚ) ≤ binary64.bound := by
    show (8 : ℚ) ≤ 2 ^ (((53 : ℕ) : ℤ) + 971)
    calc (8 : ℚ) = 2 ^ (3 : ℤ) := by norm_num
      _ ≤ _ := zpow_le_zpow_right₀ (by norm_num) (by norm_num)
  have h2 : (1 + binary64.u) ^ 3 ≤ (9 / 8) ^ 3 := pow_le_pow_left₀ (by linarith) (by linarith) 3
  have h3 : (1 + binary64.u) ^ 3 * binary64.eta ≤ (9 / 8) ^ 3 * 1 := mul_le_mul h2 he he0.le (by norm_num)
  rw [h1]
  unfold dotErr
  push_cast
  norm_num at h2 h3 ⊢
  linarith

/-- The hypotheses of `C109_residual` (for the ray) and of `C109_decision` are met by a hit. -/
example : ∃ (az t : Flt binary64.fmt), az.isFinite ∧ 0 ≤ az.val ∧ t.isFinite ∧ (dot rayS.direction planeS.normal).isFinite ∧
    intersectRayPlane az rayS planeS = some t := by
  obtain ⟨t, ht, hf, -⟩ := rayS_hits
  have hz := Flt.round_between (P := binary64) (q := 1 / 10 ^ 3) (a := 0) (b := 1) binary64.fmt.rep_zero binary64.fmt.rep_one
    (by norm_num) (by norm_num)
  refine ⟨Flt.round (1 / 10 ^ 3), t, hz.1, by rw [hz.2.1]; exact hz.2.2.1, hf, rayS_dot_finite, ht⟩

set_option exponentiation.threshold 2000 in
/-- If the dot product of direction and normal overflows then the ray is reported to hit at its origin, wherever the plane is. -/
theorem C109_overflow_fails : ∃ (r : Ray (Flt binary64.fmt) 1) (p : Plane (Flt binary64.fmt) 1),
    (∀ i, (r.origin i).isFinite ∧ (r.direction i).isFinite ∧ (p.normal i).isFinite) ∧ p.distance.isFinite ∧
    planeNum r.origin p = 64 ∧ intersectRayPlane (Flt.round (1 / 10 ^ 3)) r p = some 0 := by
  refine ⟨⟨![0], ![dbl 4 1021]⟩, ⟨dbl 4 0, ![dbl 4 0]⟩, fun i => ?_, trivial, ?_, ?_⟩
  · fin_cases i; exact ⟨trivial, trivial, trivial⟩
  · simp [planeNum, dbl_val]
    norm_num [Flt.zero_val]
  · have h1 : dot (![dbl 4 1021] : Vec (Flt binary64.fmt) 1) ![dbl 4 0] = Flt.pinf := by
      rw [dot_succ']
      show (0 : Flt binary64.fmt) + dbl 4 1021 * dbl 4 0 = _
      rw [Flt.zero_add', Flt.mul_eq (a := dbl 4 1021) (b := dbl 4 0) trivial trivial, dbl_val, dbl_val]
      apply Flt.round_pinf
      have h2 : binary64.Rep (binary64.bound : ℚ) := ⟨1, 1024, by show (2 : ℚ) ^ (((53 : ℕ) : ℤ) + 971) = _; norm_num, by norm_num [binary64], by
        norm_num [binary64]⟩
      refine binary64.le_fl_of_rep h2 ?_
      show (2 : ℚ) ^ (((53 : ℕ) : ℤ) + 971) ≤ _
      norm_num
    have h3 : dot (Plane.anchor ⟨dbl 4 0, ![dbl 4 0]⟩ - ![0]) (![dbl 4 0] : Vec (Flt binary64.fmt) 1) = dbl 4 4 := by
      rw [dot_succ']
      show (0 : Flt binary64.fmt) + (dbl 4 0 * dbl 4 0 - 0) * dbl 4 0 = _
      have e1 : dbl 4 0 * dbl 4 0 = dbl 4 2 := by
        rw [Flt.mul_eq (a := dbl 4 0) (b := dbl 4 0) trivial trivial, dbl_val,
          show (((4 : ℤ) : ℚ) * 2 ^ (0 : ℤ) * (((4 : ℤ) : ℚ) * 2 ^ (0 : ℤ))) = (dbl 4 2).val by rw [dbl_val]; norm_num,
          BinPar.round_rep (Flt.rep_val _)]
        rfl
      have e2 : dbl 4 2 - 0 = dbl 4 2 := by
        rw [Flt.sub_eq (a := dbl 4 2) trivial Flt.zero_finite, Flt.zero_val, sub_zero, BinPar.round_rep (Flt.rep_val _)]
        rfl
      rw [e1, e2, Flt.zero_add', Flt.mul_eq (a := dbl 4 2) (b := dbl 4 0) trivial trivial, dbl_val, dbl_val,
          show (((4 : ℤ) : ℚ) * 2 ^ (2 : ℤ) * (((4 : ℤ) : ℚ) * 2 ^ (0 : ℤ))) = (dbl 4 4).val by rw [dbl_val]; norm_num,
          BinPar.round_rep (Flt.rep_val _)]
      rfl
    have hz := Flt.round_between (P := binary64) (q := 1 / 10 ^ 3) (a := 0) (b := 1) binary64.fmt.rep_zero binary64.fmt.rep_one
      (by norm_num) (by norm_num)
    unfold intersectRayPlane
    simp only
    rw [h1, h3]
    have h4 : dbl 4 4 / Flt.pinf = 0 := rfl
    have h5 : isZero (Flt.pinf : Flt binary64.fmt) (Flt.round (1 / 10 ^ 3)) = false := by
      unfold isZero
      have e1 : Cmp.eq (Flt.pinf : Flt binary64.fmt) 0 = false := rfl
      have e2 : vm.abs (Flt.pinf : Flt binary64.fmt) = Flt.pinf := rfl
      rw [e1, e2, Bool.false_or, le_of_keys (show IEEE.key (Flt.pinf : Flt binary64.fmt) = some (⊤ : Ext) from rfl) (Flt.key_fin hz.1)]
      exact decide_eq_false (fun h => nomatch h)
    rw [h5, h4, Flt.lt_val Flt.zero_finite (Flt.neg_finite.2 hz.1), Flt.neg_val, hz.2.1, Flt.zero_val,
      decide_eq_false (by linarith [hz.2.2.1])]
    rfl

/-- The hypotheses of `C109_axis_plane`. -/
example : (∀ i, (rayS.origin i).isFinite) ∧ (∀ i, (rayS.direction i).isFinite) ∧ planeS.distance.isFinite :=
  ⟨fun i => (rayS_ok.1 i).1, fun i => (rayS_ok.2.1 i).1, trivial⟩

end vm
