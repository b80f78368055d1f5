import Verif.Lemmas.FltPlanePts
import Verif.Props.FltQuadratic

/-! C126: planes through three points in IEEE arithmetic. -/

set_option linter.unusedSectionVars false
set_option linter.unusedSimpArgs false

namespace vm
open BinPar (two_zpow_pos)

/-- Over the real numbers the definitions with parameters agree with those of `Model/Geom.lean`, unless an edge has length zero (where the
quotient is not a number).  No real number is infinite, which any number beyond the sine stands for. -/
theorem C126_model (inf : ℝ) (p1 p2 p3 : Vec ℝ 3) (e : ℝ) (he : 0 < e) (h0 : length (p3 - p1) * length (p2 - p1) ≠ 0)
    (hinf : length (cross (p3 - p1) (p2 - p1)) / (length (p3 - p1) * length (p2 - p1)) < inf) :
    ((Plane.planeNormalG Real.sqrt inf p1 p2 p3 e).1, some (Plane.planeNormalG Real.sqrt inf p1 p2 p3 e).2) = Plane.planeNormal p1 p2 p3 e ∧
    ((Plane.fromPointsG Real.sqrt inf p1 p2 p3 Plane.angleEpsilon).1, some (Plane.fromPointsG Real.sqrt inf p1 p2 p3 Plane.angleEpsilon).2) =
      Plane.fromPoints p1 p2 p3 := by
  have hN : 0 ≤ length (cross (p3 - p1) (p2 - p1)) := Real.sqrt_nonneg _
  have hL : 0 ≤ length (p3 - p1) * length (p2 - p1) := mul_nonneg (Real.sqrt_nonneg _) (Real.sqrt_nonneg _)
  have key : ∀ e : ℝ, 0 < e →
      ((Plane.planeNormalG Real.sqrt inf p1 p2 p3 e).1, some (Plane.planeNormalG Real.sqrt inf p1 p2 p3 e).2) = Plane.planeNormal p1 p2 p3 e := by
    intro e he
    have hq := div_nonneg hN hL
    have e1 : ∀ v : Vec ℝ 3, lengthG Real.sqrt v = length v := fun _ => rfl
    unfold Plane.planeNormalG Plane.planeNormal
    simp only [e1, exact_isNan, Bool.false_or, if_neg h0]
    have ha : vm.abs (length (cross (p3 - p1) (p2 - p1)) / (length (p3 - p1) * length (p2 - p1))) =
        length (cross (p3 - p1) (p2 - p1)) / (length (p3 - p1) * length (p2 - p1)) := by
      unfold vm.abs
      rw [if_neg]
      simp only [Cmp.lt, decide_eq_true_eq, not_lt]
      exact hq
    rw [ha, abs_of_nonneg hq]
    have hi : isInf inf (length (cross (p3 - p1) (p2 - p1)) / (length (p3 - p1) * length (p2 - p1))) = false := by
      unfold isInf
      simp only [Cmp.eq, Bool.or_eq_false_iff, decide_eq_false_iff_not]
      constructor
      · exact hinf.ne
      · intro hc; linarith
    rw [hi, Bool.false_or]
    by_cases hlt : length (cross (p3 - p1) (p2 - p1)) / (length (p3 - p1) * length (p2 - p1)) < e
    · simp [Cmp.lt, hlt]
    · have hn : length (cross (p3 - p1) (p2 - p1)) ≠ 0 := by
        intro hc
        rw [hc, zero_div] at hlt
        exact hlt he
      simp only [Cmp.lt, hlt, decide_false, Bool.false_eq_true, if_false, normalize, if_neg hn]
      rfl
  refine ⟨key e he, ?_⟩
  have := key Plane.angleEpsilon (by unfold Plane.angleEpsilon; positivity)
  unfold Plane.fromPointsG Plane.fromPoints
  rw [← this]
  rcases Plane.planeNormalG Real.sqrt inf p1 p2 p3 Plane.angleEpsilon with ⟨b, v⟩
  cases b <;> rfl

/-- Non-vacuity. -/
example : ∃ (inf : ℝ) (p1 p2 p3 : Vec ℝ 3), length (p3 - p1) * length (p2 - p1) ≠ 0 ∧
    length (cross (p3 - p1) (p2 - p1)) / (length (p3 - p1) * length (p2 - p1)) < inf := by
  refine ⟨length (cross (![1, 0, 0] - ![0, 0, 0]) (![0, 1, 0] - ![0, 0, 0]) : Vec ℝ 3) /
    (length (![1, 0, 0] - ![0, 0, 0] : Vec ℝ 3) * length (![0, 1, 0] - ![0, 0, 0] : Vec ℝ 3)) + 1, ![0, 0, 0], ![0, 1, 0], ![1, 0, 0], ?_, by linarith⟩
  have h1 : squaredLength (![1, 0, 0] - ![0, 0, 0] : Vec ℝ 3) = 1 := by
    simp [squaredLength, dot3]
  have h2 : squaredLength (![0, 1, 0] - ![0, 0, 0] : Vec ℝ 3) = 1 := by
    simp [squaredLength, dot3]
  rw [length, length, h1, h2]
  simp

/-- `is_inf` and `is_nan` recognise exactly the infinities and NaN. -/
theorem C126_is_inf {F : Fmt} (x : Flt F) :
    (isInf Flt.pinf x = true ↔ x = Flt.pinf ∨ x = Flt.ninf) ∧ (isNan x = true ↔ x = Flt.nan) ∧
    (x.isFinite ↔ isInf Flt.pinf x = false ∧ isNan x = false) := by
  cases x with
  | nan =>
    refine ⟨⟨fun h => absurd h (by simp [isInf, Cmp.eq, Flt.key]), fun h => by simp at h⟩, ⟨fun _ => rfl, fun _ => by simp [isNan, Cmp.eq, Flt.key]⟩,
      ⟨fun h => h.elim, fun h => absurd h.2 (by simp [isNan, Cmp.eq, Flt.key])⟩⟩
  | pinf => exact ⟨⟨fun _ => Or.inl rfl, fun _ => rfl⟩, ⟨fun h => absurd h (by simp [isNan, Cmp.eq, Flt.key]), fun h => by simp at h⟩,
      ⟨fun h => h.elim, fun h => absurd h.1 (by simp [show ∀ y : Flt F, isInf Flt.pinf y = (Cmp.eq y Flt.pinf || Cmp.eq y Flt.ninf) from fun _ => rfl, Cmp.eq, Flt.key])⟩⟩
  | ninf => exact ⟨⟨fun _ => Or.inr rfl, fun _ => rfl⟩, ⟨fun h => absurd h (by simp [isNan, Cmp.eq, Flt.key]), fun h => by simp at h⟩,
      ⟨fun h => h.elim, fun h => absurd h.1 (by simp [show ∀ y : Flt F, isInf Flt.pinf y = (Cmp.eq y Flt.pinf || Cmp.eq y Flt.ninf) from fun _ => rfl, Cmp.eq, Flt.key])⟩⟩
  | fin q hq =>
    have h1 : isInf Flt.pinf (Flt.fin (F := F) q hq) = false := by
      have e : (-(Flt.pinf : Flt F)) = Flt.ninf := rfl
      unfold isInf
      rw [e]
      simp [Cmp.eq, Flt.key, Ext.ofRat]
    have h2 : isNan (Flt.fin (F := F) q hq) = false := by simp [isNan, Cmp.eq, Flt.key]
    refine ⟨⟨fun h => ?_, fun h => by simp at h⟩, ⟨fun h => ?_, fun h => by simp at h⟩, ⟨fun _ => ⟨h1, h2⟩, fun _ => trivial⟩⟩
    · rw [h1] at h; simp at h
    · rw [h2] at h; simp at h

variable {P : BinPar} {g M : ℤ} {s : Flt P.fmt → Flt P.fmt}

namespace FltPts

/-- The edges and the cross product are exact. -/
theorem edges (h : P.PlaneGrid g M) {p1 p2 p3 : Vec (Flt P.fmt) 3} (h1 : GridPt g M p1) (h2 : GridPt g M p2) (h3 : GridPt g M p3) :
    (GridPt g (2 * M) (p3 - p1) ∧ vval (p3 - p1) = vval p3 - vval p1) ∧ (GridPt g (2 * M) (p2 - p1) ∧ vval (p2 - p1) = vval p2 - vval p1) ∧
    GridPt (g + g) (2 * (2 * M * (2 * M))) (cross (p3 - p1) (p2 - p1)) ∧
    vval (cross (p3 - p1) (p2 - p1)) = cross (vval p3 - vval p1) (vval p2 - vval p1) := by
  have hM := h.one_le
  have hx := h.exact
  have k1 := FltTri.sub_grid h3 h1 (ok1 h) (by nlinarith)
  have k2 := FltTri.sub_grid h2 h1 (ok1 h) (by nlinarith)
  rw [← two_mul] at k1 k2
  have k3 := FltTri.cross_grid k1.1 k2.1 (ok2 h) (by nlinarith)
  rw [k1.2, k2.2] at k3
  exact ⟨k1, k2, k3⟩

theorem cross_ne {v w : Vec ℚ 3} (h : cross v w ≠ 0) : v ≠ 0 ∧ w ≠ 0 := by
  constructor <;> rintro rfl <;> refine h (funext fun i => ?_) <;> fin_cases i <;> simp [cross]

theorem abs_nonneg_flt {x : Flt P.fmt} (hx : x.isFinite) (h : 0 ≤ x.val) : vm.abs x = x := by
  unfold vm.abs
  rw [if_neg]
  rw [lt_zero_flt hx]
  simp [h]

theorem zero_div_cases (y : Flt P.fmt) : 0 / y = Flt.nan ∨ 0 / y = 0 := by
  cases y with
  | nan => exact Or.inl rfl
  | pinf => exact Or.inr rfl
  | ninf => exact Or.inr rfl
  | fin q hq =>
    by_cases h : q = 0
    · left
      subst h
      show (if (0 : ℚ) = 0 then Flt.infTimes 0 else _) = _
      simp [Flt.infTimes]
    · right
      show (if q = 0 then Flt.infTimes 0 else Flt.round (0 / q)) = _
      rw [if_neg h, zero_div]
      exact BinPar.round_rep P.fmt.rep_zero

/-- The validity test in terms of the sine. -/
theorem valid_iff (h : P.PlaneGrid g M) (hs : FaithfulSqrt P s) {p1 p2 p3 : Vec (Flt P.fmt) 3} (h1 : GridPt g M p1) (h2 : GridPt g M p2)
    (h3 : GridPt g M p3) (hn : cross (vval p3 - vval p1) (vval p2 - vval p1) ≠ 0) {e : Flt P.fmt} (he : e.isFinite) :
    ∃ q : ℚ, (Plane.planeNormalG s Flt.pinf p1 p2 p3 e =
        if q < e.val then (false, fun _ => 0) else (true, normalizeG s (cross (p3 - p1) (p2 - p1)))) ∧
      |(q : ℝ) - vlen (cross (vval p3 - vval p1) (vval p2 - vval p1)) / (vlen (vval p3 - vval p1) * vlen (vval p2 - vval p1))| ≤
        20 * P.u * (vlen (cross (vval p3 - vval p1) (vval p2 - vval p1)) / (vlen (vval p3 - vval p1) * vlen (vval p2 - vval p1))) := by
  obtain ⟨⟨a1, a2⟩, ⟨b1, b2⟩, c1, c2⟩ := edges h h1 h2 h3
  obtain ⟨n1, n2⟩ := cross_ne hn
  have hsin := sine h hs a1 b1 c1 (by rw [a2]; exact n1) (by rw [b2]; exact n2) (by rw [c2]; exact hn)
  rw [a2, b2, c2] at hsin
  refine ⟨_, ?_, hsin.2⟩
  have hu : 250 * (P.u : ℝ) ≤ 1 := by exact_mod_cast h.acc
  have hq0 : 0 ≤ vlen (cross (vval p3 - vval p1) (vval p2 - vval p1)) / (vlen (vval p3 - vval p1) * vlen (vval p2 - vval p1)) :=
    div_nonneg (vlen_nonneg _) (mul_nonneg (vlen_nonneg _) (vlen_nonneg _))
  have hq : 0 ≤ (lengthG s (cross (p3 - p1) (p2 - p1)) / (lengthG s (p3 - p1) * lengthG s (p2 - p1))).val := by
    have k := (abs_le.1 hsin.2).1
    have : (0 : ℝ) ≤ (lengthG s (cross (p3 - p1) (p2 - p1)) / (lengthG s (p3 - p1) * lengthG s (p2 - p1))).val := by nlinarith
    exact_mod_cast this
  unfold Plane.planeNormalG
  simp only []
  rw [abs_nonneg_flt hsin.1 hq, ((C126_is_inf _).2.2.1 hsin.1).1, ((C126_is_inf _).2.2.1 hsin.1).2, Flt.lt_val hsin.1 he]
  simp

end FltPts

open FltPts

/-- Colinear points are rejected, whatever the (positive) tolerance. -/
theorem C126_colinear (h : P.PlaneGrid g M) (hs : FaithfulSqrt P s) (p1 p2 p3 : Vec (Flt P.fmt) 3) (h1 : GridPt g M p1) (h2 : GridPt g M p2)
    (h3 : GridPt g M p3) (hn : cross (vval p3 - vval p1) (vval p2 - vval p1) = 0) (e : Flt P.fmt) (he : e.isFinite) (he0 : 0 < e.val) :
    Plane.planeNormalG s Flt.pinf p1 p2 p3 e = (false, fun _ => 0) ∧ Plane.fromPointsG s Flt.pinf p1 p2 p3 e = (false, Plane.zero) := by
  have key : Plane.planeNormalG s Flt.pinf p1 p2 p3 e = (false, fun _ => 0) := by
    obtain ⟨⟨a1, a2⟩, ⟨b1, b2⟩, c1, c2⟩ := edges h h1 h2 h3
    have hlen : ∀ {k B : ℤ} {v : Vec (Flt P.fmt) 3}, GridPt k B v → vval v = 0 → lengthG s v = 0 := by
      intro k B v hv h0
      have e0 : v = fun _ => 0 := funext fun i => FltTri.fin_val_inj (hv i).1 Flt.zero_finite (by rw [Flt.zero_val]; exact congrFun h0 i)
      have e1 : (squaredLength v).isFinite ∧ (squaredLength v).val = 0 := by
        have hz : GridPt 0 0 v := fun i => ⟨(hv i).1, 0, by have := congrFun h0 i; simp only [vval, Pi.zero_apply] at this; simp [this], by simp⟩
        have := FltTri.dot_grid hz hz P.ok_zero (by simp)
        refine ⟨this.1.1, this.2.trans ?_⟩
        rw [h0]; simp [dot3]
      refine (FltQuad.sqrt_exact hs e1.1 P.fmt.rep_zero le_rfl (by rw [e1.2]; ring)).trans ?_
      rfl
    rw [← c2] at hn
    have l0 := hlen c1 hn
    unfold Plane.planeNormalG
    simp only []
    rw [if_pos]
    rw [l0]
    rcases zero_div_cases (lengthG s (p3 - p1) * lengthG s (p2 - p1)) with hd | hd
    · rw [hd]
      rfl
    · rw [hd, abs_nonneg_flt Flt.zero_finite (by rw [Flt.zero_val]), Flt.lt_val Flt.zero_finite he, Flt.zero_val]
      simp [he0]
  refine ⟨key, ?_⟩
  unfold Plane.fromPointsG
  rw [key]
  rfl

/-- Points that are not colinear are accepted if the sine of the angle between the edges exceeds the tolerance by a few units of rounding, and
rejected if it is smaller by that much. -/
theorem C126_valid (h : P.PlaneGrid g M) (hs : FaithfulSqrt P s) (p1 p2 p3 : Vec (Flt P.fmt) 3) (h1 : GridPt g M p1) (h2 : GridPt g M p2)
    (h3 : GridPt g M p3) (hn : cross (vval p3 - vval p1) (vval p2 - vval p1) ≠ 0) (e : Flt P.fmt) (he : e.isFinite) (sine : ℝ)
    (hsine : sine = vlen (cross (vval p3 - vval p1) (vval p2 - vval p1)) / (vlen (vval p3 - vval p1) * vlen (vval p2 - vval p1))) :
    (e.val ≤ (1 - 20 * P.u) * sine → (Plane.planeNormalG s Flt.pinf p1 p2 p3 e).1 = true ∧ (Plane.fromPointsG s Flt.pinf p1 p2 p3 e).1 = true) ∧
    ((1 + 20 * P.u) * sine < e.val → (Plane.planeNormalG s Flt.pinf p1 p2 p3 e).1 = false ∧
      (Plane.fromPointsG s Flt.pinf p1 p2 p3 e) = (false, Plane.zero)) := by
  obtain ⟨q, hq, hb⟩ := valid_iff h hs h1 h2 h3 hn he
  rw [← hsine] at hb
  obtain ⟨b1, b2⟩ := abs_le.1 hb
  unfold Plane.fromPointsG
  constructor
  · intro hle
    have hlt : ¬ q < e.val := by
      intro hc
      have : (q : ℝ) < e.val := by exact_mod_cast hc
      linarith
    rw [hq, if_neg hlt]
    exact ⟨rfl, rfl⟩
  · intro hle
    have hlt : q < e.val := by
      have : (q : ℝ) < e.val := by linarith
      exact_mod_cast this
    rw [hq, if_pos hlt]
    exact ⟨rfl, rfl⟩

/-- With a tolerance that is small compared to the size of the grid, exactly the colinear triples are rejected. -/
theorem C126_grid_valid (h : P.PlaneGrid g M) (hs : FaithfulSqrt P s) (p1 p2 p3 : Vec (Flt P.fmt) 3) (h1 : GridPt g M p1) (h2 : GridPt g M p2)
    (h3 : GridPt g M p3) (e : Flt P.fmt) (he : e.isFinite) (he0 : 0 < e.val) (heM : 14 * (M : ℚ) ^ 2 * e.val ≤ 1) :
    (Plane.fromPointsG s Flt.pinf p1 p2 p3 e).1 = true ↔ cross (vval p3 - vval p1) (vval p2 - vval p1) ≠ 0 := by
  constructor
  · intro ht hc
    rw [(C126_colinear h hs p1 p2 p3 h1 h2 h3 hc e he he0).2] at ht
    simp at ht
  · intro hn
    refine ((C126_valid h hs p1 p2 p3 h1 h2 h3 hn e he _ rfl).1 ?_).2
    obtain ⟨⟨a1, a2⟩, ⟨b1, b2⟩, c1, c2⟩ := edges h h1 h2 h3
    obtain ⟨n1, n2⟩ := cross_ne hn
    obtain ⟨-, -, lv, bv⟩ := edge_len h hs a1 (by rw [a2]; exact n1)
    obtain ⟨-, -, lw, bw⟩ := edge_len h hs b1 (by rw [b2]; exact n2)
    obtain ⟨⟨-, -, ln, -⟩, -⟩ := normal_len h hs c1 (by rw [c2]; exact hn)
    rw [a2] at lv bv
    rw [b2] at lw bw
    rw [c2] at ln
    have hM : (1 : ℝ) ≤ M := by exact_mod_cast h.one_le
    have hu : 250 * (P.u : ℝ) ≤ 1 := by exact_mod_cast h.acc
    have hu0 : (0 : ℝ) < P.u := by exact_mod_cast P.u_pos
    have hz : (0 : ℝ) < 2 ^ g := by positivity
    have hz2 : (0 : ℝ) < 2 ^ (2 * g) := by positivity
    have ez : (2 : ℝ) ^ g * 2 ^ g = 2 ^ (2 * g) := by rw [← zpow_add₀ (by norm_num)]; ring_nf
    have hE : 14 * (M : ℝ) ^ 2 * e.val ≤ 1 := by exact_mod_cast heM
    have hE0 : (0 : ℝ) < e.val := by exact_mod_cast he0
    have hL : 0 < vlen (vval p3 - vval p1) * vlen (vval p2 - vval p1) := mul_pos (by linarith) (by linarith)
    rw [← mul_div_assoc, le_div_iff₀ hL]
    have hL2 : vlen (vval p3 - vval p1) * vlen (vval p2 - vval p1) ≤ 49 / 4 * (M ^ 2 * 2 ^ (2 * g)) := by
      calc vlen (vval p3 - vval p1) * vlen (vval p2 - vval p1) ≤ 7 / 2 * M * 2 ^ g * (7 / 2 * M * 2 ^ g) :=
            mul_le_mul bv bw (by linarith) (by positivity)
        _ = 49 / 4 * (M ^ 2 * (2 ^ g * 2 ^ g)) := by ring
        _ = _ := by rw [ez]
    calc (e.val : ℝ) * (vlen (vval p3 - vval p1) * vlen (vval p2 - vval p1)) ≤ e.val * (49 / 4 * (M ^ 2 * 2 ^ (2 * g))) :=
          mul_le_mul_of_nonneg_left hL2 hE0.le
      _ = 7 / 8 * (14 * (M : ℝ) ^ 2 * e.val) * 2 ^ (2 * g) := by ring
      _ ≤ 7 / 8 * 1 * 2 ^ (2 * g) := by gcongr
      _ ≤ (1 - 20 * P.u) * 2 ^ (2 * g) := mul_le_mul_of_nonneg_right (by linarith) hz2.le
      _ ≤ _ := mul_le_mul_of_nonneg_left ln (by linarith)

namespace FltPts

theorem accepted {p1 p2 p3 : Vec (Flt P.fmt) 3} {e : Flt P.fmt} (hv : (Plane.fromPointsG s Flt.pinf p1 p2 p3 e).1 = true) :
    (Plane.fromPointsG s Flt.pinf p1 p2 p3 e).2 = Plane.ofAnchor p1 (normalizeG s (cross (p3 - p1) (p2 - p1))) := by
  unfold Plane.fromPointsG Plane.planeNormalG at *
  simp only [] at *
  split_ifs at hv ⊢ with hc h4
  · exact absurd rfl h4
  · rfl

theorem unit_dir {v : Vec ℚ 3} (hv : v ≠ 0) : ∑ i, ((v i : ℝ) / vlen v) ^ 2 = 1 := by
  have h0 : (0 : ℚ) < ∑ i, v i ^ 2 := by
    obtain ⟨i, hi⟩ := Function.ne_iff.1 hv
    exact lt_of_lt_of_le (pow_pos (abs_pos.2 hi) 2 |>.trans_eq (sq_abs _))
      (Finset.single_le_sum (f := fun i => v i ^ 2) (fun _ _ => sq_nonneg _) (Finset.mem_univ i))
  have h1 : (0 : ℝ) < ((∑ i, v i ^ 2 : ℚ) : ℝ) := by exact_mod_cast h0
  simp only [div_pow]
  rw [← Finset.sum_div, vlen_sq]
  push_cast at h1 ⊢
  exact div_self h1.ne'

end FltPts

/-- The normal of an accepted plane is the normalised cross product of `p3 - p1` and `p2 - p1`, up to a few units of rounding in each
component. -/
theorem C126_normal (h : P.PlaneGrid g M) (hs : FaithfulSqrt P s) (p1 p2 p3 : Vec (Flt P.fmt) 3) (h1 : GridPt g M p1) (h2 : GridPt g M p2)
    (h3 : GridPt g M p3) (e : Flt P.fmt) (he : e.isFinite) (he0 : 0 < e.val) (hv : (Plane.fromPointsG s Flt.pinf p1 p2 p3 e).1 = true)
    (n : Vec ℚ 3) (hn : n = cross (vval p3 - vval p1) (vval p2 - vval p1)) (i : Fin 3) :
    n ≠ 0 ∧ ((Plane.fromPointsG s Flt.pinf p1 p2 p3 e).2.normal i).isFinite ∧
    |(((Plane.fromPointsG s Flt.pinf p1 p2 p3 e).2.normal i).val : ℝ) - n i / vlen n| ≤ 29 / 4 * P.u * |(n i / vlen n : ℝ)| + P.eta := by
  have n0 : n ≠ 0 := by
    intro hc
    rw [hn] at hc
    rw [(C126_colinear h hs p1 p2 p3 h1 h2 h3 hc e he he0).2] at hv
    simp at hv
  obtain ⟨-, -, c1, c2⟩ := edges h h1 h2 h3
  rw [← hn] at c2
  have := (normal_len h hs c1 (by rw [c2]; exact n0)).2 i
  rw [c2] at this
  rw [accepted hv, abs_div, abs_of_nonneg (vlen_nonneg n)]
  exact ⟨n0, this⟩

/-- The distance of a point of the grid from an accepted plane, as computed by `point_distance`, is within a few units of rounding (relative to
the size of the grid) of its exact distance from the exact plane. -/
theorem C126_distance (h : P.PlaneGrid g M) (hs : FaithfulSqrt P s) (p1 p2 p3 : Vec (Flt P.fmt) 3) (h1 : GridPt g M p1) (h2 : GridPt g M p2)
    (h3 : GridPt g M p3) (e : Flt P.fmt) (he : e.isFinite) (he0 : 0 < e.val) (hv : (Plane.fromPointsG s Flt.pinf p1 p2 p3 e).1 = true)
    (n : Vec ℚ 3) (hn : n = cross (vval p3 - vval p1) (vval p2 - vval p1)) (x : Vec (Flt P.fmt) 3) (hx : GridPt g M x) :
    ((Plane.fromPointsG s Flt.pinf p1 p2 p3 e).2.pointDistance x).isFinite ∧
    |(((Plane.fromPointsG s Flt.pinf p1 p2 p3 e).2.pointDistance x).val : ℝ) - (dot n (vval x - vval p1) : ℚ) / vlen n| ≤
      42 * P.u * (M * 2 ^ g) := by
  have hN := C126_normal h hs p1 p2 p3 h1 h2 h3 e he he0 hv n hn
  have := dist_err h (unit_dir (hN 0).1) (fun i => (hN i).2) hx h1
  rw [accepted hv] at this ⊢
  have e1 : ((dot n (vval x - vval p1) : ℚ) : ℝ) / vlen n = ∑ i, (n i : ℝ) / vlen n * ((x i).val - (p1 i).val) := by
    rw [dot3, Fin.sum_univ_three]
    simp only [Pi.sub_apply, vval]
    push_cast
    ring
  rw [e1]
  exact this

/-- A point of the grid is classified according to its exact distance from the exact plane, unless that distance is within a few units of
rounding of the tolerance. -/
theorem C126_side (h : P.PlaneGrid g M) (hs : FaithfulSqrt P s) (p1 p2 p3 : Vec (Flt P.fmt) 3) (h1 : GridPt g M p1) (h2 : GridPt g M p2)
    (h3 : GridPt g M p3) (e : Flt P.fmt) (he : e.isFinite) (he0 : 0 < e.val) (hv : (Plane.fromPointsG s Flt.pinf p1 p2 p3 e).1 = true)
    (n : Vec ℚ 3) (hn : n = cross (vval p3 - vval p1) (vval p2 - vval p1)) (x : Vec (Flt P.fmt) 3) (hx : GridPt g M x)
    (eps : Flt P.fmt) (heps : eps.isFinite) (heps0 : 0 ≤ eps.val) (t B : ℝ) (ht : t = (dot n (vval x - vval p1) : ℚ) / vlen n)
    (hB : B = 42 * P.u * (M * 2 ^ g)) :
    (eps.val + B < t → (Plane.fromPointsG s Flt.pinf p1 p2 p3 e).2.pointStatus x eps = .above) ∧
    (t < -(eps.val + B) → (Plane.fromPointsG s Flt.pinf p1 p2 p3 e).2.pointStatus x eps = .below) ∧
    (|t| + B ≤ eps.val → (Plane.fromPointsG s Flt.pinf p1 p2 p3 e).2.pointStatus x eps = .inside) := by
  obtain ⟨hf, hd⟩ := C126_distance h hs p1 p2 p3 h1 h2 h3 e he he0 hv n hn x hx
  rw [← ht, ← hB, abs_le] at hd
  have hE0 : (0 : ℝ) ≤ eps.val := by exact_mod_cast heps0
  have hne : (-eps).isFinite := Flt.neg_finite.2 heps
  unfold Plane.pointStatus
  simp only [Flt.lt_val heps hf, Flt.lt_val hf hne, Flt.neg_val, decide_eq_true_eq]
  set D := ((Plane.fromPointsG s Flt.pinf p1 p2 p3 e).2.pointDistance x).val
  refine ⟨fun hc => ?_, fun hc => ?_, fun hc => ?_⟩
  · rw [if_pos]
    have : (eps.val : ℝ) < D := by linarith [hd.1]
    exact_mod_cast this
  · have k1 : (D : ℝ) < ((-eps.val : ℚ) : ℝ) := by push_cast; linarith [hd.2]
    have k2 : D < -eps.val := by exact_mod_cast k1
    rw [if_neg (by linarith), if_pos k2]
  · have k := abs_le.1 (show |t| ≤ eps.val - B by linarith)
    have k1 : (D : ℝ) ≤ eps.val := by linarith [hd.2]
    have k2 : ((-eps.val : ℚ) : ℝ) ≤ D := by push_cast; linarith [hd.1]
    have k1' : D ≤ eps.val := by exact_mod_cast k1
    have k2' : -eps.val ≤ D := by exact_mod_cast k2
    rw [if_neg (by linarith), if_neg (by linarith)]

/-- The three points lie on the plane they define: the first one exactly, the others up to a few units of rounding. -/
theorem C126_points (h : P.PlaneGrid g M) (hs : FaithfulSqrt P s) (p1 p2 p3 : Vec (Flt P.fmt) 3) (h1 : GridPt g M p1) (h2 : GridPt g M p2)
    (h3 : GridPt g M p3) (e : Flt P.fmt) (he : e.isFinite) (he0 : 0 < e.val) (hv : (Plane.fromPointsG s Flt.pinf p1 p2 p3 e).1 = true)
    (eps : Flt P.fmt) (heps : eps.isFinite) (hB : 42 * P.u * (M * 2 ^ g) ≤ eps.val) :
    ((Plane.fromPointsG s Flt.pinf p1 p2 p3 e).2.pointDistance p1).val = 0 ∧
    (Plane.fromPointsG s Flt.pinf p1 p2 p3 e).2.pointStatus p1 eps = .inside ∧
    (Plane.fromPointsG s Flt.pinf p1 p2 p3 e).2.pointStatus p2 eps = .inside ∧
    (Plane.fromPointsG s Flt.pinf p1 p2 p3 e).2.pointStatus p3 eps = .inside := by
  have hB' : 42 * (P.u : ℝ) * (M * 2 ^ g) ≤ eps.val := by
    have := (Rat.cast_le (K := ℝ)).2 hB
    push_cast at this
    exact this
  have hM : (1 : ℚ) ≤ M := by exact_mod_cast h.one_le
  have hu := P.u_pos
  have hz := two_zpow_pos g
  have he1 : 0 ≤ eps.val := le_trans (by positivity) hB
  have key : ∀ x : Vec (Flt P.fmt) 3, GridPt g M x → dot (cross (vval p3 - vval p1) (vval p2 - vval p1)) (vval x - vval p1) = 0 →
      (Plane.fromPointsG s Flt.pinf p1 p2 p3 e).2.pointStatus x eps = .inside := fun x hx h0 =>
    (C126_side h hs p1 p2 p3 h1 h2 h3 e he he0 hv _ rfl x hx eps heps he1 _ _ rfl rfl).2.2 (by rw [h0]; simpa using hB')
  refine ⟨?_, key p1 h1 ?_, key p2 h2 ?_, key p3 h3 ?_⟩
  · have hf := (C126_distance h hs p1 p2 p3 h1 h2 h3 e he he0 hv _ rfl p1 h1).1
    rw [accepted hv] at hf ⊢
    unfold Plane.pointDistance Plane.ofAnchor at *
    simp only [] at *
    rw [Flt.sub_val hf, sub_self, BinPar.fl_zero]
  · simp [dot3, cross]
  · rw [dot3]; simp [cross]; ring
  · rw [dot3]; simp [cross]; ring

/-! ### Concrete formats -/

namespace FltPts

theorem planeGrid64 : binary64.PlaneGrid 0 (2 ^ 20) := by
  refine ⟨by norm_num, by norm_num [binary64], by norm_num [binary64], by norm_num [binary64], ?_⟩
  norm_num [BinPar.u, binary64]

theorem planeGrid32 : binary32.PlaneGrid 0 (2 ^ 10) := by
  refine ⟨by norm_num, by norm_num [binary32], by norm_num [binary32], by norm_num [binary32], ?_⟩
  norm_num [BinPar.u, binary32]

theorem u64 : binary64.u = 1 / 2 ^ 53 := by
  show (2 : ℚ) ^ (-((53 : ℕ) : ℤ)) = _
  rw [zpow_neg, zpow_natCast, one_div]

theorem two_lt64 : (2 : ℚ) < binary64.bound := by
  have := lt_bound64 (q := 2) (by norm_num [abs_le])
  rwa [abs_of_pos (by norm_num)] at this

/-- The tolerance `static_cast<double>(1e-8)`. -/
theorem angle64 : (Flt.round (1 / 10 ^ 8) : Flt binary64.fmt).isFinite ∧
    |(Flt.round (1 / 10 ^ 8) : Flt binary64.fmt).val - 1 / 10 ^ 8| ≤ 1 / 10 ^ 20 := by
  have h := is_round (P := binary64) (q := 1 / 10 ^ 8) rfl (fl_lt_bound (lt_of_le_of_lt (by norm_num) two_lt64))
  refine ⟨h.1, ?_⟩
  rw [h.2]
  refine (binary64.fl_err_u _).trans ?_
  rw [u64]
  have : binary64.eta ≤ 1 / 10 ^ 30 := by
    have := eta_u binary64
    rw [u64] at this
    norm_num at this ⊢
    linarith
  norm_num at this ⊢
  linarith

/-- The tolerance `static_cast<double>(1e-4)`. -/
theorem status64 : (Flt.round (1 / 10 ^ 4) : Flt binary64.fmt).isFinite ∧
    |(Flt.round (1 / 10 ^ 4) : Flt binary64.fmt).val - 1 / 10 ^ 4| ≤ 1 / 10 ^ 19 := by
  have h := is_round (P := binary64) (q := 1 / 10 ^ 4) rfl (fl_lt_bound (lt_of_le_of_lt (by norm_num) two_lt64))
  refine ⟨h.1, ?_⟩
  rw [h.2]
  refine (binary64.fl_err_u _).trans ?_
  rw [u64]
  have : binary64.eta ≤ 1 / 10 ^ 30 := by
    have := eta_u binary64
    rw [u64] at this
    norm_num at this ⊢
    linarith
  norm_num at this ⊢
  linarith

theorem GridPt.mono {P : BinPar} {g M N : ℤ} {p : Vec (Flt P.fmt) 3} (h : GridPt g M p) (hN : M ≤ N) : GridPt g N p := fun i => by
  obtain ⟨h1, z, h2, h3⟩ := h i
  exact ⟨h1, z, h2, h3.trans hN⟩

theorem grid_mono {P : BinPar} {g M N : ℤ} (h : P.PlaneGrid g M) (h1 : 1 ≤ N) (hN : N ≤ M) : P.PlaneGrid g N :=
  ⟨h1, lt_of_le_of_lt (by nlinarith) h.exact, h.low, h.high, h.acc⟩

end FltPts

/-- In double precision, with the default tolerances, for points with integer coordinates of at most 2048: exactly the colinear triples are
rejected, the three points of an accepted triple are on the plane, and every other such point is on the side that its exact distance says,
unless this distance is within 10^-11 of the tolerance. -/
theorem C126_double {s : Flt binary64.fmt → Flt binary64.fmt} (hs : FaithfulSqrt binary64 s) (p1 p2 p3 : Vec (Flt binary64.fmt) 3)
    (h1 : GridPt 0 2048 p1) (h2 : GridPt 0 2048 p2) (h3 : GridPt 0 2048 p3) (n : Vec ℚ 3)
    (hn : n = cross (vval p3 - vval p1) (vval p2 - vval p1)) (r : Bool × Plane (Flt binary64.fmt) 3)
    (hr : r = Plane.fromPointsG s Flt.pinf p1 p2 p3 (Flt.round (1 / 10 ^ 8))) :
    (r.1 = true ↔ n ≠ 0) ∧
    (r.1 = true → r.2.pointStatus p1 (Flt.round (1 / 10 ^ 4)) = .inside ∧ r.2.pointStatus p2 (Flt.round (1 / 10 ^ 4)) = .inside ∧
      r.2.pointStatus p3 (Flt.round (1 / 10 ^ 4)) = .inside ∧
      ∀ (x : Vec (Flt binary64.fmt) 3) (t : ℝ), GridPt 0 2048 x → t = (dot n (vval x - vval p1) : ℚ) / vlen n →
        (1 / 10 ^ 4 + 1 / 10 ^ 11 ≤ t → r.2.pointStatus x (Flt.round (1 / 10 ^ 4)) = .above) ∧
        (t ≤ -(1 / 10 ^ 4 + 1 / 10 ^ 11) → r.2.pointStatus x (Flt.round (1 / 10 ^ 4)) = .below) ∧
        (|t| ≤ 1 / 10 ^ 4 - 1 / 10 ^ 11 → r.2.pointStatus x (Flt.round (1 / 10 ^ 4)) = .inside)) := by
  have hg : binary64.PlaneGrid 0 2048 := grid_mono planeGrid64 (by norm_num) (by norm_num)
  obtain ⟨a1, a2⟩ := angle64
  obtain ⟨b1, b2⟩ := status64
  generalize (Flt.round (1 / 10 ^ 8) : Flt binary64.fmt) = e at *
  generalize (Flt.round (1 / 10 ^ 4) : Flt binary64.fmt) = e' at *
  rw [abs_le] at a2 b2
  have e0 : 0 < e.val := by norm_num at a2 ⊢; linarith [a2.1]
  have hB : 42 * binary64.u * ((2048 : ℤ) * 2 ^ (0 : ℤ)) ≤ 96 / 10 ^ 13 := by rw [u64]; norm_num
  have hB' : 42 * (binary64.u : ℝ) * ((2048 : ℤ) * 2 ^ (0 : ℤ)) ≤ 96 / 10 ^ 13 := by
    have := (Rat.cast_le (K := ℝ)).2 hB
    push_cast at this ⊢
    exact this
  subst hr
  refine ⟨?_, fun hv => ?_⟩
  · rw [hn]
    refine C126_grid_valid hg hs p1 p2 p3 h1 h2 h3 e a1 e0 ?_
    push_cast
    norm_num at a2 ⊢
    linarith [a2.2]
  · have hp := C126_points hg hs p1 p2 p3 h1 h2 h3 e a1 e0 hv e' b1 (by push_cast at hB ⊢; norm_num at b2 hB ⊢; linarith [b2.1])
    refine ⟨hp.2.1, hp.2.2.1, hp.2.2.2, fun x t hx ht => ?_⟩
    have e'0 : 0 ≤ e'.val := by norm_num at b2 ⊢; linarith [b2.1]
    have hside := C126_side hg hs p1 p2 p3 h1 h2 h3 e a1 e0 hv n hn x hx e' b1 e'0 t _ ht rfl
    have c1 := (Rat.cast_le (K := ℝ)).2 b2.1
    have c2 := (Rat.cast_le (K := ℝ)).2 b2.2
    push_cast at c1 c2
    refine ⟨fun hc => hside.1 ?_, fun hc => hside.2.1 ?_, fun hc => hside.2.2 ?_⟩
    · norm_num at hB' c1 c2 hc ⊢; linarith
    · norm_num at hB' c1 c2 hc ⊢; linarith
    · norm_num at hB' c1 c2 hc ⊢; linarith

namespace FltPts

theorem sum3 (a b c : ℚ) : ∑ i, (![a, b, c] : Vec ℚ 3) i ^ 2 = a ^ 2 + b ^ 2 + c ^ 2 := by
  rw [Fin.sum_univ_three]; rfl

theorem cross3 (a b c d e f : ℚ) : cross (![a, b, c] : Vec ℚ 3) ![d, e, f] = ![b * f - c * e, c * d - a * f, a * e - b * d] := by
  funext i; fin_cases i <;> rfl

theorem sub3 (a b c d e f : ℤ) : ((fun i => ((![a, b, c] : Fin 3 → ℤ) i : ℚ)) - fun i => ((![d, e, f] : Fin 3 → ℤ) i : ℚ) : Vec ℚ 3) =
    ![(a : ℚ) - d, b - e, c - f] := by
  funext i; fin_cases i <;> rfl

theorem vlen_ge {v : Vec ℚ 3} {c : ℚ} (h : c ^ 2 ≤ ∑ i, v i ^ 2) : (c : ℝ) ≤ vlen v := by
  refine abs_le_of_sq_le_sq' ?_ (vlen_nonneg _) |>.2
  rw [vlen_sq]
  exact_mod_cast h

theorem vlen_le {v : Vec ℚ 3} {c : ℚ} (hc : 0 ≤ c) (h : ∑ i, v i ^ 2 ≤ c ^ 2) : vlen v ≤ c := by
  have hc' : (0 : ℝ) ≤ c := by exact_mod_cast hc
  refine abs_le_of_sq_le_sq' ?_ hc' |>.2
  rw [vlen_sq]
  exact_mod_cast h

end FltPts

/-- Integer points that are not colinear are rejected if they are far apart: with the default tolerance and double precision, (0, 0, 0),
(20001, 1, 0) and (20000, 1, 0) do not define a plane. -/
theorem C126_far_fails {s : Flt binary64.fmt → Flt binary64.fmt} (hs : FaithfulSqrt binary64 s) :
    ∃ p1 p2 p3 : Vec (Flt binary64.fmt) 3, GridPt 0 20001 p1 ∧ GridPt 0 20001 p2 ∧ GridPt 0 20001 p3 ∧
      cross (vval p3 - vval p1) (vval p2 - vval p1) ≠ 0 ∧
      Plane.fromPointsG s Flt.pinf p1 p2 p3 (Flt.round (1 / 10 ^ 8)) = (false, Plane.zero) := by
  have g1 := gr_int (S := 3) (P := binary64) (![0, 0, 0] : Fin 3 → ℤ) (M := 20001) (fun i => by fin_cases i <;> norm_num) (by norm_num [binary64])
  have g2 := gr_int (S := 3) (P := binary64) (![20001, 1, 0] : Fin 3 → ℤ) (M := 20001) (fun i => by fin_cases i <;> norm_num) (by norm_num [binary64])
  have g3 := gr_int (S := 3) (P := binary64) (![20000, 1, 0] : Fin 3 → ℤ) (M := 20001) (fun i => by fin_cases i <;> norm_num) (by norm_num [binary64])
  have val : ∀ {z : Fin 3 → ℤ}, (∀ i, Gr 0 (intVec binary64 z i) (z i) 20001) → vval (intVec binary64 z) = fun i => (z i : ℚ) := fun {z} h =>
    funext fun i => (h i).val.trans (by rw [zpow_zero, mul_one])
  have v1 : vval (intVec binary64 ![20000, 1, 0]) - vval (intVec binary64 ![0, 0, 0]) = ![20000, 1, 0] := by
    rw [val g1, val g3]; funext i; fin_cases i <;> norm_num
  have v2 : vval (intVec binary64 ![20001, 1, 0]) - vval (intVec binary64 ![0, 0, 0]) = ![20001, 1, 0] := by
    rw [val g1, val g2]; funext i; fin_cases i <;> norm_num
  have v3 : cross (![20000, 1, 0] : Vec ℚ 3) ![20001, 1, 0] = ![0, 0, -1] := by
    rw [cross3]; norm_num
  have n0 : (![0, 0, -1] : Vec ℚ 3) ≠ 0 := fun h => by have := congrFun h 2; simp at this
  have hg : binary64.PlaneGrid 0 20001 := grid_mono planeGrid64 (by norm_num) (by norm_num)
  have hn : cross (vval (intVec binary64 ![20000, 1, 0]) - vval (intVec binary64 ![0, 0, 0]))
      (vval (intVec binary64 ![20001, 1, 0]) - vval (intVec binary64 ![0, 0, 0])) ≠ 0 := by rw [v1, v2, v3]; exact n0
  refine ⟨_, _, _, fun i => (g1 i).onGrid, fun i => (g2 i).onGrid, fun i => (g3 i).onGrid, hn, ?_⟩
  obtain ⟨a1, a2⟩ := angle64
  refine ((C126_valid hg hs _ _ _ (fun i => (g1 i).onGrid) (fun i => (g2 i).onGrid) (fun i => (g3 i).onGrid) hn _ a1 _ rfl).2 ?_).2
  rw [v1, v2, v3]
  have l0 := vlen_le (v := ![0, 0, -1]) (c := 1) (by norm_num) (by rw [sum3]; norm_num)
  have l1 := vlen_ge (v := ![20000, 1, 0]) (c := 20000) (by rw [sum3]; norm_num)
  have l2 := vlen_ge (v := ![20001, 1, 0]) (c := 20000) (by rw [sum3]; norm_num)
  push_cast at l0 l1 l2
  have hq : vlen ![0, 0, -1] / (vlen ![20000, 1, 0] * vlen ![20001, 1, 0]) ≤ 1 / (20000 * 20000) :=
    div_le_div₀ (by norm_num) l0 (by norm_num) (mul_le_mul l1 l2 (by norm_num) (by linarith))
  have hu : (binary64.u : ℝ) = 1 / 2 ^ 53 := by rw [u64]; push_cast; rfl
  have a3 := (Rat.cast_le (K := ℝ)).2 (abs_le.1 a2).1
  push_cast at a3
  rw [hu]
  norm_num at hq a3 ⊢
  linarith

namespace FltPts

/-- A power of two in the format. -/
theorem two_pow33 : binary32.fmt.rep (2 ^ 33) := by
  have := Gr.round (P := binary32) (g := 33) (z := 1) (B := 1) (q := 2 ^ 33) (by norm_num [BinPar.Ok, binary32]) (by norm_num) (by norm_num) (by norm_num [binary32])
  have h := Flt.rep_val (Flt.round (2 ^ 33) : Flt binary32.fmt)
  rwa [this.val, show ((1 : ℤ) : ℚ) * 2 ^ (33 : ℤ) = 2 ^ 33 by norm_num] at h

end FltPts

/-- Overflow rejects points that define a plane: in single precision this happens for two perpendicular edges of length 2^33, whatever the
tolerance. -/
theorem C126_overflow_fails {s : Flt binary32.fmt → Flt binary32.fmt} (hs : FaithfulSqrt binary32 s) (e : Flt binary32.fmt) :
    ∃ p1 p2 p3 : Vec (Flt binary32.fmt) 3, vval p1 = ![0, 0, 0] ∧ vval p2 = ![0, 2 ^ 33, 0] ∧ vval p3 = ![2 ^ 33, 0, 0] ∧
      Plane.fromPointsG s Flt.pinf p1 p2 p3 e = (false, Plane.zero) := by
  set m : Flt binary32.fmt := Flt.fin (2 ^ 33) two_pow33 with hm
  have mf : m.isFinite := trivial
  have G : Gr 33 m 1 1 := ⟨mf, by rw [hm]; show (2 : ℚ) ^ 33 = _; norm_num, by norm_num⟩
  have G2 : Gr (33 + 33) (m * m) (1 * 1) (1 * 1) := G.mul G (by norm_num [BinPar.Ok, binary32]) (by norm_num [binary32])
  have G2f := G2.fin
  have z : (0 : Flt binary32.fmt).isFinite := Flt.zero_finite
  have z0 : (0 : Flt binary32.fmt) * 0 = 0 := Flt.mul_zero_fin z
  have z1 : m * 0 = 0 := Flt.mul_zero_fin mf
  have z2 : 0 * m = 0 := Flt.zero_mul_fin mf
  have e1 : (![m, 0, 0] : Vec (Flt binary32.fmt) 3) - ![0, 0, 0] = ![m, 0, 0] := by
    funext i; fin_cases i <;> exact Flt.sub_zero' _
  have e2 : (![0, m, 0] : Vec (Flt binary32.fmt) 3) - ![0, 0, 0] = ![0, m, 0] := by
    funext i; fin_cases i <;> exact Flt.sub_zero' _
  have e3 : cross (![m, 0, 0] : Vec (Flt binary32.fmt) 3) ![0, m, 0] = ![0, 0, m * m] := by
    funext i
    fin_cases i
    · show (0 : Flt binary32.fmt) * 0 - 0 * m = 0
      rw [z0, z2, Flt.sub_zero']
    · show (0 : Flt binary32.fmt) * 0 - m * 0 = 0
      rw [z0, z1, Flt.sub_zero']
    · show m * m - 0 * 0 = m * m
      rw [z0, Flt.sub_zero']
  have o : (m * m) * (m * m) = Flt.pinf := by
    rw [Flt.mul_eq G2f G2f, G2.val]
    refine round_over ?_
    norm_num [BinPar.bound, binary32]
  have l0 : lengthG s ![0, 0, m * m] = Flt.pinf := by
    have : squaredLength (![0, 0, m * m] : Vec (Flt binary32.fmt) 3) = Flt.pinf := by
      show (0 + 0 * 0 + 0 * 0 + (m * m) * (m * m) : Flt binary32.fmt) = _
      rw [z0, Flt.zero_add', Flt.zero_add', o, Flt.zero_add']
    unfold lengthG
    rw [this, hs.pinf]
  have hs2 : s (m * m) = m := FltQuad.sqrt_exact hs G2f two_pow33 (by norm_num) (by rw [G2.val]; norm_num)
  have l1 : lengthG s ![m, 0, 0] = m := by
    have : squaredLength (![m, 0, 0] : Vec (Flt binary32.fmt) 3) = m * m := by
      show (0 + m * m + 0 * 0 + 0 * 0 : Flt binary32.fmt) = _
      rw [z0, Flt.zero_add', Flt.add_zero', Flt.add_zero']
    unfold lengthG
    rw [this, hs2]
  have l2 : lengthG s ![0, m, 0] = m := by
    have : squaredLength (![0, m, 0] : Vec (Flt binary32.fmt) 3) = m * m := by
      show (0 + 0 * 0 + m * m + 0 * 0 : Flt binary32.fmt) = _
      rw [z0, Flt.zero_add', Flt.zero_add', Flt.add_zero']
    unfold lengthG
    rw [this, hs2]
  refine ⟨![0, 0, 0], ![0, m, 0], ![m, 0, 0], ?_, ?_, ?_, ?_⟩
  · funext i; fin_cases i <;> rfl
  · funext i; fin_cases i <;> rfl
  · funext i; fin_cases i <;> rfl
  have hd : Flt.pinf / (m * m) = Flt.pinf := by
    obtain ⟨k1, k2⟩ := Flt.eq_fin G2f
    rw [k2]
    show (if 0 ≤ (m * m).val then Flt.pinf else Flt.ninf : Flt binary32.fmt) = _
    rw [if_pos (by rw [G2.val]; positivity)]
  have key : Plane.planeNormalG s Flt.pinf ![0, 0, 0] ![0, m, 0] ![m, 0, 0] e = (false, fun _ => 0) := by
    unfold Plane.planeNormalG
    simp only []
    rw [e1, e2, e3, l0, l1, l2, hd]
    rfl
  unfold Plane.fromPointsG
  rw [key]
  rfl

/-! ### Non-vacuity -/

/-- The hypotheses of the theorems hold for three points with integer coordinates in single precision; the plane is accepted. -/
example {s : Flt binary32.fmt → Flt binary32.fmt} (hs : FaithfulSqrt binary32 s) :
    ∃ (p1 p2 p3 : Vec (Flt binary32.fmt) 3) (e : Flt binary32.fmt), binary32.PlaneGrid 0 (2 ^ 10) ∧ GridPt 0 (2 ^ 10) p1 ∧ GridPt 0 (2 ^ 10) p2 ∧
      GridPt 0 (2 ^ 10) p3 ∧ e.isFinite ∧ 0 < e.val ∧ 14 * ((2 ^ 10 : ℤ) : ℚ) ^ 2 * e.val ≤ 1 ∧
      (Plane.fromPointsG s Flt.pinf p1 p2 p3 e).1 = true := by
  have g1 := gr_int (S := 3) (P := binary32) (![-3, 5, 1000] : Fin 3 → ℤ) (M := 2 ^ 10) (fun i => by fin_cases i <;> norm_num) (by norm_num [binary32])
  have g2 := gr_int (S := 3) (P := binary32) (![20, -700, 1] : Fin 3 → ℤ) (M := 2 ^ 10) (fun i => by fin_cases i <;> norm_num) (by norm_num [binary32])
  have g3 := gr_int (S := 3) (P := binary32) (![17, 1, -9] : Fin 3 → ℤ) (M := 2 ^ 10) (fun i => by fin_cases i <;> norm_num) (by norm_num [binary32])
  have val : ∀ {z : Fin 3 → ℤ}, (∀ i, Gr 0 (intVec binary32 z i) (z i) (2 ^ 10)) → vval (intVec binary32 z) = fun i => (z i : ℚ) := fun {z} h =>
    funext fun i => (h i).val.trans (by rw [zpow_zero, mul_one])
  have ge : Gr (-30) (Flt.round (1 / 2 ^ 30) : Flt binary32.fmt) 1 1 :=
    Gr.round (by norm_num [BinPar.Ok, binary32]) (by norm_num) (by norm_num) (by norm_num [binary32])
  have e0 : 0 < (Flt.round (1 / 2 ^ 30) : Flt binary32.fmt).val := by rw [ge.val]; norm_num
  have e1 : 14 * ((2 ^ 10 : ℤ) : ℚ) ^ 2 * (Flt.round (1 / 2 ^ 30) : Flt binary32.fmt).val ≤ 1 := by rw [ge.val]; norm_num
  refine ⟨_, _, _, Flt.round (1 / 2 ^ 30), planeGrid32, fun i => (g1 i).onGrid, fun i => (g2 i).onGrid, fun i => (g3 i).onGrid, ge.fin, e0, e1, ?_⟩
  refine (C126_grid_valid planeGrid32 hs _ _ _ (fun i => (g1 i).onGrid) (fun i => (g2 i).onGrid) (fun i => (g3 i).onGrid) _ ge.fin e0 e1).2 ?_
  rw [val g1, val g2, val g3, sub3, sub3, cross3]
  intro hc
  have : ((17 - -3 : ℚ) * (-700 - 5) - (1 - 5) * (20 - -3)) = 0 := by
    have := congrFun hc 2
    push_cast at this
    exact this
  norm_num at this

/-- Colinear points. -/
example : ∃ p1 p2 p3 : Vec (Flt binary32.fmt) 3, GridPt 0 (2 ^ 10) p1 ∧ GridPt 0 (2 ^ 10) p2 ∧ GridPt 0 (2 ^ 10) p3 ∧ vval p1 ≠ vval p2 ∧
    cross (vval p3 - vval p1) (vval p2 - vval p1) = 0 := by
  have g1 := gr_int (S := 3) (P := binary32) (![1, 2, 3] : Fin 3 → ℤ) (M := 2 ^ 10) (fun i => by fin_cases i <;> norm_num) (by norm_num [binary32])
  have g2 := gr_int (S := 3) (P := binary32) (![2, 4, 6] : Fin 3 → ℤ) (M := 2 ^ 10) (fun i => by fin_cases i <;> norm_num) (by norm_num [binary32])
  have g3 := gr_int (S := 3) (P := binary32) (![3, 6, 9] : Fin 3 → ℤ) (M := 2 ^ 10) (fun i => by fin_cases i <;> norm_num) (by norm_num [binary32])
  have val : ∀ {z : Fin 3 → ℤ}, (∀ i, Gr 0 (intVec binary32 z i) (z i) (2 ^ 10)) → vval (intVec binary32 z) = fun i => (z i : ℚ) := fun {z} h =>
    funext fun i => (h i).val.trans (by rw [zpow_zero, mul_one])
  refine ⟨_, _, _, fun i => (g1 i).onGrid, fun i => (g2 i).onGrid, fun i => (g3 i).onGrid, ?_, ?_⟩
  · rw [val g1, val g2]
    intro hc
    have := congrFun hc 0
    norm_num at this
  · rw [val g1, val g2, val g3, sub3, sub3, cross3]
    norm_num
    exact Subsingleton.elim _ _

/-- A square root that meets the requirement exists. -/
example (P : BinPar) : ∃ s : Flt P.fmt → Flt P.fmt, FaithfulSqrt P s := let ⟨s, hs⟩ := exists_correctSqrt P; ⟨s, hs.faithful⟩

end vm
