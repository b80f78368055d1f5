import Verif.Props.FltPolygon
import Verif.Props.FltPlaneAt
import Verif.Props.FltRayPlane
import Verif.Props.FltProject
import Verif.Props.Sort

/-! C155: `intersect_ray_polygon` in IEEE arithmetic. -/

set_option linter.unusedSectionVars false
set_option linter.unusedSimpArgs false

namespace vm
open BinPar
variable {P : BinPar} {m : ℕ}

namespace FltRP

/-- The positive or negative direction of an axis. -/
def dir (P : BinPar) (neg : Bool) (k : Fin 3) : Vec (Flt P.fmt) 3 := if neg then -axisVec P k else axisVec P k

theorem dir_self (neg : Bool) (k : Fin 3) : dir P neg k k = if neg then -1 else 1 := by
  cases neg
  · show (if k = k then (1 : Flt P.fmt) else 0) = _
    rw [if_pos rfl]; rfl
  · show -(if k = k then (1 : Flt P.fmt) else 0) = _
    rw [if_pos rfl]; rfl

theorem dir_ne (neg : Bool) {k j : Fin 3} (h : j ≠ k) : dir P neg k j = 0 := by
  cases neg
  · show (if j = k then (1 : Flt P.fmt) else 0) = _
    rw [if_neg h]
  · show -(if j = k then (1 : Flt P.fmt) else 0) = _
    rw [if_neg h]; exact Flt.neg_zero'

theorem dir_finite (neg : Bool) (k j : Fin 3) : (dir P neg k j).isFinite := by
  by_cases h : j = k
  · subst h
    rw [dir_self]
    cases neg
    · exact Flt.one_finite
    · exact Flt.neg_finite.2 Flt.one_finite
  · rw [dir_ne neg h]; exact Flt.zero_finite

/-- The distance along the axis. -/
theorem div_dir (neg : Bool) (k : Fin 3) {x : Flt P.fmt} (hx : x.isFinite) : x / dir P neg k k = if neg then -x else x := by
  rw [dir_self]
  cases neg
  · exact Flt.div_one' x
  · have hf : (-(1 : Flt P.fmt)).isFinite := Flt.neg_finite.2 Flt.one_finite
    have hv : (-(1 : Flt P.fmt)).val = -1 := by rw [Flt.neg_val, Flt.one_val]
    obtain ⟨h1, h2⟩ := Flt.eq_fin hf
    obtain ⟨h3, h4⟩ := Flt.eq_fin hx
    show x / -(1 : Flt P.fmt) = -x
    have e : x / -(1 : Flt P.fmt) = Flt.round (x.val / (-(1 : Flt P.fmt)).val) := by
      rw [h2, h4]
      show (if (-(1 : Flt P.fmt)).val = 0 then Flt.infTimes x.val else _) = _
      rw [if_neg (by rw [hv]; norm_num)]
      rfl
    rw [e, hv, div_neg, div_one]
    have r := Flt.rep_val (-x)
    rw [Flt.neg_val] at r
    rw [round_rep r]
    exact Flt.ext trivial (Flt.neg_finite.2 hx) (by rw [Flt.neg_val]; rfl)

/-- The index of the longest component of the normal. -/
theorem axis_index (k : Fin 3) (junk : ℕ → Flt P.fmt × ℕ) : findAbsMaxComponent (axisVec P k) 0 junk = k.val := by
  have hd : ∀ i, (axisVec P k i).isFinite := fun i => by
    unfold axisVec; split_ifs
    · exact Flt.one_finite
    · exact Flt.zero_finite
  obtain ⟨j, h1, h2, -⟩ := sortVector_rank (fun l r => Cmp.lt (vm.abs l.1) (vm.abs r.1)) (axisVec P k) junk (fun i => |(axisVec P k i).val|)
    (fun i j => abs_lt_flt (hd i) (hd j)) 0 (by norm_num)
  have hmax : |(axisVec P k k).val| ≤ |(axisVec P k j).val| := by
    rw [Nat.le_zero, Finset.card_eq_zero, Finset.filter_eq_empty_iff] at h2
    exact not_lt.1 (h2 (Finset.mem_univ k))
  have : j = k := by
    by_contra hne
    unfold axisVec at hmax
    rw [if_pos rfl, if_neg hne, Flt.zero_val, Flt.one_val] at hmax
    norm_num at hmax
  rw [findAbsMaxComponent, h1, this]

/-- Two points that differ only along the axis look the same. -/
theorem relPos_congr {p q : Vec (Flt P.fmt) 3} {k : Fin 3} (h : ∀ j, j ≠ k → p j = q j) (v : Vec (Flt P.fmt) 3) :
    relPos p v k 0 = relPos q v k 0 ∧ relPos p v k 1 = relPos q v k 1 := by
  have e : ∀ j, j ≠ k → vval p j = vval q j := fun j hj => by unfold vval; rw [h j hj]
  fin_cases k
  · have e1 := e 1 (by decide)
    have e2 := e 2 (by decide)
    exact ⟨by show vval v 1 - vval p 1 = vval v 1 - vval q 1; rw [e1], by show vval v 2 - vval p 2 = vval v 2 - vval q 2; rw [e2]⟩
  · have e1 := e 2 (by decide)
    have e2 := e 0 (by decide)
    exact ⟨by show vval v 2 - vval p 2 = vval v 2 - vval q 2; rw [e1], by show vval v 0 - vval p 0 = vval v 0 - vval q 0; rw [e2]⟩
  · have e1 := e 0 (by decide)
    have e2 := e 1 (by decide)
    exact ⟨by show vval v 0 - vval p 0 = vval v 0 - vval q 0; rw [e1], by show vval v 1 - vval p 1 = vval v 1 - vval q 1; rw [e2]⟩

theorem crosses_congr {p q : Vec (Flt P.fmt) 3} {k : Fin 3} (h : ∀ j, j ≠ k → p j = q j) (v w : Vec (Flt P.fmt) 3) (x : ℚ) :
    CrossesAt p v w k x ↔ CrossesAt q v w k x := by
  obtain ⟨v0, v1⟩ := relPos_congr h v
  obtain ⟨w0, w1⟩ := relPos_congr h w
  unfold CrossesAt
  simp only [Pi.add_apply, Pi.smul_apply, Pi.sub_apply, v0, v1, w0, w1]

/-- The tolerance. -/
theorem az_small (hP : P = binary32 ∨ P = binary64) : P.almostZero.isFinite ∧ 0 ≤ P.almostZero.val ∧ P.almostZero.val ≤ 1001 / 1000000 := by
  rcases hP with rfl | rfl
  · exact ⟨almostZero32.1, by rw [almostZero32.2]; norm_num, by rw [almostZero32.2]; norm_num⟩
  · exact ⟨almostZero64.1, by rw [almostZero64.2]; norm_num, by rw [almostZero64.2]; norm_num⟩

/-- The point where a ray that is parallel to an axis meets a plane that is orthogonal to it. -/
theorem axis_point (neg : Bool) (k : Fin 3) {o : Vec (Flt P.fmt) 3} {x : Flt P.fmt} (hx : x.isFinite) (j : Fin 3) :
    pointAtDistance o (dir P neg k) (if neg then -x else x) j = if j = k then o k + x else o j := by
  show o j + dir P neg k j * (if neg then -x else x) = _
  have hf : (if neg then -x else x).isFinite := by
    cases neg
    · exact hx
    · exact Flt.neg_finite.2 hx
  by_cases h : j = k
  · subst h
    rw [if_pos rfl, dir_self]
    congr 1
    cases neg
    · exact Flt.one_mul' x
    · show -1 * -x = x
      rw [Flt.neg_mul', Flt.one_mul']
      exact Flt.ext (Flt.neg_finite.2 (Flt.neg_finite.2 hx)) hx (by rw [Flt.neg_val, Flt.neg_val, neg_neg])
  · rw [if_neg h, dir_ne neg h, Flt.zero_mul_fin hf, Flt.add_zero']

/-- The plane test for such a ray. -/
theorem axis_plane (hP : P = binary32 ∨ P = binary64) (neg : Bool) (k : Fin 3) {o : Vec (Flt P.fmt) 3} (ho : ∀ i, (o i).isFinite) {dist : Flt P.fmt}
    (hd : dist.isFinite) (hf : (dist - o k).isFinite) :
    intersectRayPlane P.almostZero ⟨o, dir P neg k⟩ ⟨dist, axisVec P k⟩ =
      if (if neg then -(dist - o k).val else (dist - o k).val) < -P.almostZero.val then none else some (if neg then -(dist - o k) else dist - o k) := by
  obtain ⟨a1, a2, a3⟩ := az_small hP
  rw [(C109_axis_plane P ⟨o, dir P neg k⟩ ⟨o, dir P neg k⟩ k dist P.almostZero ho (dir_finite neg k) ho (dir_finite neg k) hd).1]
  show (if isZero (dir P neg k k) P.almostZero then none else if Cmp.lt ((dist - o k) / dir P neg k k) (-P.almostZero) then none else
    some ((dist - o k) / dir P neg k k)) = _
  have h1 : isZero (dir P neg k k) P.almostZero = false := by
    rw [isZero_flt (dir_finite neg k k) a1 a2, decide_eq_false_iff_not, not_le, dir_self]
    cases neg
    · show P.almostZero.val < |(1 : Flt P.fmt).val|
      rw [Flt.one_val, abs_one]; linarith
    · show P.almostZero.val < |(-1 : Flt P.fmt).val|
      rw [Flt.neg_val, Flt.one_val, abs_neg, abs_one]; linarith
  have h2 : Cmp.lt (if neg then -(dist - o k) else dist - o k) (-P.almostZero) = decide ((if neg then -(dist - o k).val else (dist - o k).val) < -P.almostZero.val) := by
    cases neg
    · exact (Flt.lt_val hf (Flt.neg_finite.2 a1)).trans (by rw [Flt.neg_val]; rfl)
    · refine (Flt.lt_val (Flt.neg_finite.2 hf) (Flt.neg_finite.2 a1)).trans (by rw [Flt.neg_val, Flt.neg_val]; rfl)
  rw [h1, div_dir neg k hf, h2]
  simp

end FltRP

open FltRP

/-- Rays parallel to an axis, polygons in a plane orthogonal to it, in `float` and `double`: if the polygon is of moderate size, not passed closely by the ray and
no vertex is at the height of the ray then the polygon is hit exactly if it is in front of the ray and the number of edges to the right of the ray is odd, in
exact arithmetic; and then the distance is the correctly rounded one. -/
theorem C155_axis (hP : P = binary32 ∨ P = binary64) (neg : Bool) (k : Fin 3) {o : Vec (Flt P.fmt) 3} (ho : ∀ i, (o i).isFinite) {dist : Flt P.fmt} (hd : dist.isFinite)
    (hf : (dist - o k).isFinite) {V : Fin (m + 1) → Vec (Flt P.fmt) 3} (hV : ∀ i j, (V i j).isFinite) (hpl : ∀ i, V i k = dist)
    {R : ℚ} (hR : P.u * R ≤ 1 / 34000) (hb : ∀ i j, j ≠ k → |(V i j).val - (o j).val| ≤ R) (hb2 : 4 * P.u * (|(o k).val| + |dist.val|) ≤ R)
    (hover : |(o k).val| + |dist.val| < P.bound / 8)
    (hh : ∀ i, 1001 / 1000000 ≤ |relPos o (V i) k 1|) (hclear : ∀ i x, CrossesAt o (V i) (V (i + 1)) k x → 2 / 1000 < |x|) (junk : ℕ → Flt P.fmt × ℕ) :
    ∃ crossed : Finset (Fin (m + 1)), (∀ i, i ∈ crossed ↔ ∃ x, CrossesAt o (V i) (V (i + 1)) k x ∧ 0 < x) ∧
      (0 ≤ (if neg then (o k).val - dist.val else dist.val - (o k).val) → ∃ t : Flt P.fmt, t.isFinite ∧ t.val = P.fl |dist.val - (o k).val| ∧
        intersectRayPolygon P.almostZero junk ⟨o, dir P neg k⟩ ⟨dist, axisVec P k⟩ (List.ofFn V) = some (if Odd crossed.card then some t else none)) ∧
      ((if neg then (o k).val - dist.val else dist.val - (o k).val) ≤ -(2 / 1000) →
        intersectRayPolygon P.almostZero junk ⟨o, dir P neg k⟩ ⟨dist, axisVec P k⟩ (List.ofFn V) = some none) := by
  have u0 := P.u_pos
  have u8 := P.u_le
  obtain ⟨a1, a2, a3⟩ := az_small hP
  have sub_ab : |dist.val - (o k).val| ≤ |(o k).val| + |dist.val| := by
    have := abs_sub dist.val (o k).val
    linarith
  have xv : (dist - o k).val = P.fl (dist.val - (o k).val) := Flt.sub_val hf
  have e1 := fl_sub_err_u (Flt.rep_val dist).1 (Flt.rep_val (o k)).1
  rw [← xv] at e1
  have e1' := e1.trans (mul_le_mul_of_nonneg_left sub_ab u0.le)
  have usum : P.u * (|(o k).val| + |dist.val|) ≤ 1 / 8 * (|(o k).val| + |dist.val|) := mul_le_mul_of_nonneg_right u8 (by positivity)
  have xa : |(dist - o k).val| ≤ (|(o k).val| + |dist.val|) + P.u * (|(o k).val| + |dist.val|) := by
    rw [show (dist - o k).val = ((dist - o k).val - (dist.val - (o k).val)) + (dist.val - (o k).val) by ring]
    exact (abs_add_le _ _).trans (by linarith)
  have sa : |(o k).val + (dist - o k).val| ≤ 17 / 8 * (|(o k).val| + |dist.val|) := by
    refine (abs_add_le _ _).trans ?_
    linarith [abs_nonneg dist.val]
  have b32 : 32 ≤ P.bound := by
    unfold BinPar.bound
    have := P.hp
    have := P.hmax
    calc (32 : ℚ) = 2 ^ (5 : ℤ) := by norm_num
      _ ≤ _ := zpow_le_zpow_right₀ (by norm_num) (by omega)
  have pf : (o k + (dist - o k)).isFinite := by
    rw [Flt.add_eq (ho k) hf, Flt.round_finite]
    exact fl_lt_bound (by linarith)
  have e2 := fl_add_err_u (Flt.rep_val (o k)).1 (Flt.rep_val (dist - o k)).1
  rw [← Flt.add_val pf] at e2
  have e2' := e2.trans (mul_le_mul_of_nonneg_left sa u0.le)
  have ed : |dist.val - (o k + (dist - o k)).val| ≤ R := by
    refine le_trans ?_ hb2
    rw [show dist.val - (o k + (dist - o k)).val = -(((o k + (dist - o k)).val - ((o k).val + (dist - o k).val)) + ((dist - o k).val - (dist.val - (o k).val))) by ring, abs_neg]
    refine (abs_add_le _ _).trans ?_
    have : 0 ≤ P.u * (|(o k).val| + |dist.val|) := by positivity
    linarith
  set t : Flt P.fmt := if neg then -(dist - o k) else dist - o k with ht
  have hpt := axis_point (P := P) neg k (o := o) hf
  rw [← ht] at hpt
  have hne : ∀ j, j ≠ k → pointAtDistance o (dir P neg k) t j = o j := fun j hj => by rw [hpt, if_neg hj]
  obtain ⟨crossed, c1, c2⟩ := C121_even_odd hP k.val (p := pointAtDistance o (dir P neg k) t) (V := V)
    (fun j => by
      rw [hpt]; split_ifs
      · exact pf
      · exact ho j) hV hR
    (fun i j => by
      rw [hpt]
      by_cases hj : j = k
      · rw [if_pos hj, hj, hpl i]; exact ed
      · rw [if_neg hj]; exact hb i j hj)
    (fun i => by rw [(relPos_congr hne (V i)).2]; exact hh i)
    (fun i x hx => hclear i x ((crosses_congr hne _ _ _).1 hx))
  refine ⟨crossed, fun i => by simp only [c1, crosses_congr hne], fun h => ⟨t, ?_, ?_, ?_⟩, fun h => ?_⟩
  · rw [ht]
    cases neg
    · exact hf
    · exact Flt.neg_finite.2 hf
  · rw [ht]
    cases neg
    · have h' : 0 ≤ dist.val - (o k).val := h
      rw [abs_of_nonneg h']; exact xv
    · have h' : 0 ≤ (o k).val - dist.val := h
      rw [abs_of_nonpos (by linarith), P.fl_neg, ← xv]; exact Flt.neg_val _
  · unfold intersectRayPolygon
    rw [axis_plane hP neg k ho hd hf, if_neg]
    · show (polygonContainsPointNormal P.almostZero junk (pointAtDistance o (dir P neg k) t) (axisVec P k) (List.ofFn V)).map _ = _
      unfold polygonContainsPointNormal
      rw [axis_index, c2]
      simp only [Option.map_some, decide_eq_true_eq]
      rfl
    · rw [not_lt, xv]
      cases neg
      · have h' : 0 ≤ dist.val - (o k).val := h
        exact (neg_nonpos.2 a2).trans (P.fl_nonneg h')
      · have h' : 0 ≤ (o k).val - dist.val := h
        show -P.almostZero.val ≤ -P.fl (dist.val - (o k).val)
        rw [← P.fl_neg, neg_sub]
        exact (neg_nonpos.2 a2).trans (P.fl_nonneg h')
  · unfold intersectRayPolygon
    rw [axis_plane hP neg k ho hd hf, if_pos]
    rw [xv] at e1 ⊢
    cases neg
    · have h' : dist.val - (o k).val ≤ -(2 / 1000) := h
      show P.fl (dist.val - (o k).val) < -P.almostZero.val
      rw [abs_of_neg (show dist.val - (o k).val < 0 by linarith)] at e1
      have := (abs_le.1 e1).2
      nlinarith
    · have h' : (o k).val - dist.val ≤ -(2 / 1000) := h
      show -P.fl (dist.val - (o k).val) < -P.almostZero.val
      rw [abs_of_pos (show 0 < dist.val - (o k).val by linarith)] at e1
      have := (abs_le.1 e1).1
      nlinarith

/-- A ray and a plane for the example and the counterexample: from (0, 0, 1) down to the plane through the origin. -/
theorem FltRP.down_point : pointAtDistance (![0, 0, 1] : Vec (Flt binary32.fmt) 3) (dir binary32 true 2) (-(0 - 1)) = 0 := by
  have z : (0 : Flt binary32.fmt).isFinite ∧ (0 : Flt binary32.fmt).val = 0 := ⟨Flt.zero_finite, Flt.zero_val⟩
  have o : (1 : Flt binary32.fmt).isFinite ∧ (1 : Flt binary32.fmt).val = 1 := ⟨Flt.one_finite, Flt.one_val⟩
  have f1 := is_sub (c := -1) z o (by fl_num (-23) (-8388608)) (lt_bound32 (by norm_num [abs_le]))
  have f2 := is_add (c := 0) o f1 (by rw [add_neg_cancel]; exact binary32.fl_zero) (lt_bound32 (by norm_num [abs_le]))
  funext j
  have := axis_point (P := binary32) true 2 (o := ![0, 0, 1]) f1.1 j
  refine this.trans ?_
  fin_cases j
  · rfl
  · rfl
  · exact (Flt.ext f2.1 z.1 (by rw [f2.2, z.2]) : (1 + (0 - 1) : Flt binary32.fmt) = 0)

/-- The hypotheses of `C155_axis` hold for a square and a ray that hits it. -/
example : let o : Vec (Flt binary32.fmt) 3 := ![0, 0, 1]
    (∀ i, (o i).isFinite) ∧ (0 - o 2 : Flt binary32.fmt).isFinite ∧ (∀ i j, (squareF i j).isFinite) ∧ (∀ i, squareF i 2 = 0) ∧ binary32.u * 2 ≤ 1 / 34000 ∧
    (∀ i j, j ≠ 2 → |(squareF i j).val - (o j).val| ≤ 2) ∧ 4 * binary32.u * (|(o 2).val| + |(0 : Flt binary32.fmt).val|) ≤ 2 ∧
    |(o 2).val| + |(0 : Flt binary32.fmt).val| < binary32.bound / 8 ∧ (∀ i, 1001 / 1000000 ≤ |relPos o (squareF i) 2 1|) ∧
    (∀ i x, CrossesAt o (squareF i) (squareF (i + 1)) 2 x → 2 / 1000 < |x|) := by
  intro o
  have hq : ∀ i j, |squareQ i j| ≤ 2 := by decide +kernel
  have hq2 : ∀ i, squareQ i 2 = 0 := by decide +kernel
  have hne : ∀ j, j ≠ ((2 : Fin 3)) → o j = (0 : Vec (Flt binary32.fmt) 3) j := fun j hj => by
    fin_cases j
    · rfl
    · rfl
    · exact absurd rfl hj
  have o2 : (o 2).isFinite ∧ (o 2).val = 1 := ⟨Flt.one_finite, Flt.one_val⟩
  have z : (0 : Flt binary32.fmt).isFinite ∧ (0 : Flt binary32.fmt).val = 0 := ⟨Flt.zero_finite, Flt.zero_val⟩
  have f1 := is_sub (c := -1) z o2 (by fl_num (-23) (-8388608)) (lt_bound32 (by norm_num [abs_le]))
  refine ⟨fun i => ?_, f1.1, fun i j => (squareF_val i j).1, fun i => ?_, by norm_num [BinPar.u, binary32], fun i j hj => ?_, ?_, ?_, fun i => ?_, fun i x hx => ?_⟩
  · by_cases hi : i = 2
    · rw [hi]; exact o2.1
    · rw [hne i hi]; exact Flt.zero_finite
  · exact Flt.ext (squareF_val i 2).1 Flt.zero_finite (by rw [(squareF_val i 2).2, hq2, Flt.zero_val])
  · rw [hne j hj, (squareF_val i j).2, show ((0 : Vec (Flt binary32.fmt) 3) j).val = 0 from rfl, sub_zero]; exact hq i j
  · rw [o2.2, z.2]; norm_num [BinPar.u, binary32]
  · rw [o2.2, z.2]; norm_num [BinPar.bound, binary32]
  · have e : relPos o (squareF i) 2 1 = relPos 0 (squareF i) 2 1 := (relPos_congr hne (squareF i)).2
    rw [e, squareF_rel]; revert i; decide +kernel
  · have hx : CrossesAt 0 (squareF i) (squareF (i + 1)) 2 x := (crosses_congr hne _ _ _).1 hx
    have hn : ∀ i, squareQ i 1 ≠ 0 := by decide +kernel
    obtain ⟨hc, rfl⟩ := (crossesAt_iff (by rw [squareF_rel]; exact hn _) (by rw [squareF_rel]; exact hn _) x).1 hx
    unfold xcross cr
    simp only [squareF_rel]
    unfold Crosses at hc
    simp only [squareF_rel] at hc
    have : ∀ i, ((squareQ i 1 < 0 ∧ 0 < squareQ (i + 1) 1) ∨ (squareQ (i + 1) 1 < 0 ∧ 0 < squareQ i 1)) →
      2 / 1000 < |(squareQ i 0 * squareQ (i + 1) 1 - squareQ i 1 * squareQ (i + 1) 0) / (squareQ (i + 1) 1 - squareQ i 1)| := by decide +kernel
    exact this i hc

/-- The size of the polygon matters: the ray from (0, 0, 1) straight down meets the triangle of `C121_large_fails` in a point strictly inside, but no hit is
reported. -/
theorem C155_large_fails (junk : ℕ → Flt binary32.fmt × ℕ) :
    (∀ i, 0 < triangleQ i 0 * triangleQ (i + 1) 1 - triangleQ i 1 * triangleQ (i + 1) 0) ∧
    (∀ i j, (triangleF i j).isFinite ∧ (triangleF i j).val = triangleQ i j) ∧ (∀ i, triangleQ i 2 = 0) ∧
    intersectRayPolygon binary32.almostZero junk ⟨![0, 0, 1], dir binary32 true 2⟩ ⟨0, axisVec binary32 2⟩ (List.ofFn triangleF) = some none := by
  obtain ⟨h1, h2, -, h4⟩ := C121_large_fails
  refine ⟨h1, h2, by decide +kernel, ?_⟩
  have z : (0 : Flt binary32.fmt).isFinite ∧ (0 : Flt binary32.fmt).val = 0 := ⟨Flt.zero_finite, Flt.zero_val⟩
  have o : (1 : Flt binary32.fmt).isFinite ∧ (1 : Flt binary32.fmt).val = 1 := ⟨Flt.one_finite, Flt.one_val⟩
  have f1 := is_sub (c := -1) z o (by fl_num (-23) (-8388608)) (lt_bound32 (by norm_num [abs_le]))
  unfold intersectRayPolygon
  have e := axis_plane (P := binary32) (Or.inl rfl) true 2 (o := ![0, 0, 1]) (fun i => by fin_cases i <;> trivial) z.1 f1.1
  have v2 : ((0 : Flt binary32.fmt) - (![0, 0, 1] : Vec (Flt binary32.fmt) 3) 2).val = -1 := f1.2
  rw [if_neg] at e
  · rw [e]
    show (polygonContainsPointNormal binary32.almostZero junk (pointAtDistance ![0, 0, 1] (dir binary32 true 2) (-(0 - 1))) (axisVec binary32 2) (List.ofFn triangleF)).map _ = _
    unfold polygonContainsPointNormal
    rw [down_point, axis_index]
    show Option.map _ (polygonContainsPoint binary32.almostZero 0 2 (List.ofFn triangleF)) = _
    rw [h4]
    rfl
  · rw [if_pos rfl, v2, almostZero32.2]; norm_num

/-- A ray through a vertex (up to the tolerance) hits the polygon, in every format and whatever the other vertices are. -/
theorem C155_vertex {az : Flt P.fmt} (haz : az.isFinite) (junk : ℕ → Flt P.fmt × ℕ) (r : Ray (Flt P.fmt) 3) (p : Plane (Flt P.fmt) 3) (V : Fin (m + 1) → Vec (Flt P.fmt) 3)
    {t : Flt P.fmt} (ht : intersectRayPlane az r p = some t) (hf : ∀ j, (pointAtDistance r.origin r.direction t j).isFinite) (i : Fin (m + 1))
    (hi : ∀ j, (V i j).isFinite) (h : ∀ j, |(V i j).val - (pointAtDistance r.origin r.direction t j).val| ≤ az.val) :
    intersectRayPolygon az junk r p (List.ofFn V) = some (some t) := by
  unfold intersectRayPolygon polygonContainsPointNormal
  rw [ht]
  simp only
  rw [C121_vertex haz _ V hf i hi h]
  rfl

/-- A reported hit is in front of the ray and on the plane, up to the rounding errors: the exact point at the reported distance satisfies the equation of the
plane up to the error of C109, and the computed point that passed the polygon test differs from it by two rounding errors. -/
theorem C155_hit (az : Flt P.fmt) (haz : az.isFinite) (h0 : 0 ≤ az.val) (junk : ℕ → Flt P.fmt × ℕ) (r : Ray (Flt P.fmt) 3) (p : Plane (Flt P.fmt) 3)
    (vs : List (Vec (Flt P.fmt) 3)) (t : Flt P.fmt) (hf : t.isFinite) (hd : (dot r.direction p.normal).isFinite)
    (h : intersectRayPolygon az junk r p vs = some (some t)) :
    -az.val ≤ t.val ∧ |t.val * planeDen r.direction p - planeNum r.origin p| ≤ planeHitErr t.val r.origin r.direction p ∧
    ∃ q : Vec (Flt P.fmt) 3, polygonContainsPointNormal az junk q p.normal vs = some true ∧
      ∀ i, (q i).isFinite → |(q i).val - ((r.origin i).val + t.val * (r.direction i).val)| ≤
        ((1 + P.u) ^ 2 - 1) * (|(r.origin i).val| + |t.val * (r.direction i).val|) + (1 + P.u) * P.eta := by
  unfold intersectRayPolygon at h
  rcases hp : intersectRayPlane az r p with _ | s
  · rw [hp] at h
    simp at h
  · rw [hp] at h
    simp only at h
    rcases hc : polygonContainsPointNormal az junk (pointAtDistance r.origin r.direction s) p.normal vs with _ | c
    · rw [hc] at h; simp at h
    · rw [hc] at h
      cases c
      · simp at h
      · have : s = t := by simpa using h
        subst this
        obtain ⟨h1, h2⟩ := (C109_residual P r ⟨r.origin, r.direction⟩ p az s haz h0 hf).1 hd hp
        exact ⟨h2, h1, _, hc, (C110_point_at_distance P r.origin r.direction s).1⟩

/-- A case of `C155_vertex` and `C155_hit`: the ray from (0, 0, 1) straight down and any polygon with the vertex (0, 0, 0). -/
example (junk : ℕ → Flt binary32.fmt × ℕ) (V : Fin (m + 1) → Vec (Flt binary32.fmt) 3) (i : Fin (m + 1)) (hi : V i = 0) :
    intersectRayPolygon binary32.almostZero junk ⟨![0, 0, 1], dir binary32 true 2⟩ ⟨0, axisVec binary32 2⟩ (List.ofFn V) = some (some (-(0 - 1))) ∧
    (-(0 - 1) : Flt binary32.fmt).isFinite ∧ (dot (dir binary32 true 2) (axisVec binary32 2)).isFinite := by
  have z : (0 : Flt binary32.fmt).isFinite ∧ (0 : Flt binary32.fmt).val = 0 := ⟨Flt.zero_finite, Flt.zero_val⟩
  have o : (1 : Flt binary32.fmt).isFinite ∧ (1 : Flt binary32.fmt).val = 1 := ⟨Flt.one_finite, Flt.one_val⟩
  have f1 := is_sub (c := -1) z o (by fl_num (-23) (-8388608)) (lt_bound32 (by norm_num [abs_le]))
  have e := axis_plane (P := binary32) (Or.inl rfl) true 2 (o := ![0, 0, 1]) (fun i => by fin_cases i <;> trivial) z.1 f1.1
  have v2 : ((0 : Flt binary32.fmt) - (![0, 0, 1] : Vec (Flt binary32.fmt) 3) 2).val = -1 := f1.2
  rw [if_neg (by rw [if_pos rfl, v2, almostZero32.2]; norm_num)] at e
  have dp : pointAtDistance (![0, 0, 1] : Vec (Flt binary32.fmt) 3) (dir binary32 true 2) (-(0 - 1)) = 0 := down_point
  refine ⟨?_, Flt.neg_finite.2 f1.1, ?_⟩
  · refine C155_vertex almostZero32.1 junk _ _ V e (fun j => ?_) i (fun j => by rw [hi]; exact z.1) (fun j => ?_)
    · show (pointAtDistance (![0, 0, 1] : Vec (Flt binary32.fmt) 3) (dir binary32 true 2) (-(0 - 1)) j).isFinite
      rw [dp]; exact z.1
    · show |(V i j).val - (pointAtDistance (![0, 0, 1] : Vec (Flt binary32.fmt) 3) (dir binary32 true 2) (-(0 - 1)) j).val| ≤ _
      rw [dp, hi, sub_self, abs_zero, almostZero32.2]; norm_num
  · rw [dot_axisVec (fun i _ => dir_finite true 2 i)]
    exact dir_finite true 2 2

end vm
