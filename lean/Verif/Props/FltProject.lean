import Verif.Props.FltRayPlane
import Verif.Props.FltBox
import Verif.Props.FltInterp

/-!
# C110: points on lines and projections in IEEE arithmetic
-/

set_option linter.unusedSectionVars false
set_option linter.unusedSimpArgs false

namespace vm
variable {P : BinPar} {S : ℕ}

/-- A finite component of `point_at_distance` differs from the exact one by at most about two units of rounding of the terms; at distance zero
the result is exactly the origin. -/
theorem C110_point_at_distance (P : BinPar) {S : ℕ} (o d : Vec (Flt P.fmt) S) (t : Flt P.fmt) :
    (∀ i, (pointAtDistance o d t i).isFinite →
      |(pointAtDistance o d t i).val - ((o i).val + t.val * (d i).val)| ≤
        ((1 + P.u) ^ 2 - 1) * (|(o i).val| + |t.val * (d i).val|) + (1 + P.u) * P.eta) ∧
    ((∀ i, (o i).isFinite) → (∀ i, (d i).isFinite) → pointAtDistance o d 0 = o) := by
  constructor
  · intro i h
    have e : pointAtDistance o d t i = o i + d i * t := rfl
    rw [e] at h ⊢
    obtain ⟨h1, h2⟩ := Flt.add_finite h
    rw [Flt.add_val h, Flt.mul_val h2, mul_comm (d i).val]
    exact coord_err (Flt.rep_val (o i)).1 _
  · intro ho hd
    funext i
    show o i + d i * 0 = o i
    rw [Flt.mul_zero_fin (hd i), Flt.add_comm', Flt.zero_add']

/-- Error bound of the distance to the projected point. -/
def projErr (o d x : Vec (Flt P.fmt) S) : ℚ :=
  ((1 + P.u) ^ (S + 1) - 1) * (∑ i, |((x i).val - (o i).val) * (d i).val|) + S * (1 + P.u) ^ S * P.eta

/-- The parameter of the projected point. -/
theorem C110_distance_to_projected (P : BinPar) {S : ℕ} (o d x : Vec (Flt P.fmt) S) (h : (distanceToProjectedPoint o d x).isFinite) :
    |(distanceToProjectedPoint o d x).val - ∑ i, ((x i).val - (o i).val) * (d i).val| ≤ projErr o d x := by
  have hu := P.u_pos
  have he := P.eta_pos
  have hfin := dot_finite_terms _ _ h
  have hw : ∀ i, |((x - o) i).val - ((x i).val - (o i).val)| ≤ P.u * |(x i).val - (o i).val| := by
    intro i
    have h1 : (x i - o i).isFinite := (hfin i).1
    show |(x i - o i).val - _| ≤ _
    rw [Flt.sub_val h1]
    exact BinPar.fl_sub_err_u (Flt.rep_val (x i)).1 (Flt.rep_val (o i)).1
  have hd := dot_err _ _ h
  have h5 : |exactDot (x - o) d - ∑ i, ((x i).val - (o i).val) * (d i).val| ≤ P.u * ∑ i, |((x i).val - (o i).val) * (d i).val| := by
    unfold exactDot
    rw [← Finset.sum_sub_distrib, Finset.mul_sum]
    refine (Finset.abs_sum_le_sum_abs _ _).trans (Finset.sum_le_sum fun i _ => ?_)
    rw [← sub_mul, abs_mul, abs_mul, ← mul_assoc]
    exact mul_le_mul_of_nonneg_right (hw i) (abs_nonneg _)
  have h6 : absDot (x - o) d ≤ (1 + P.u) * ∑ i, |((x i).val - (o i).val) * (d i).val| := by
    unfold absDot
    rw [Finset.mul_sum]
    refine Finset.sum_le_sum fun i _ => ?_
    rw [abs_mul, abs_mul, ← mul_assoc]
    refine mul_le_mul_of_nonneg_right ?_ (abs_nonneg _)
    have h8 := hw i
    have h9 := abs_sub_abs_le_abs_sub ((x - o) i).val ((x i).val - (o i).val)
    linarith
  have hpow : (1 : ℚ) ≤ (1 + P.u) ^ S := one_le_pow₀ (by linarith)
  have h7 := mul_le_mul_of_nonneg_left h6 (show 0 ≤ (1 + P.u) ^ S - 1 by linarith)
  have h8 := abs_sub_le (dot (x - o) d).val (exactDot (x - o) d) (∑ i, ((x i).val - (o i).val) * (d i).val)
  unfold dotErr at hd
  show |(dot (x - o) d).val - _| ≤ _
  have e : projErr o d x = ((1 + P.u) ^ S - 1) * ((1 + P.u) * ∑ i, |((x i).val - (o i).val) * (d i).val|) + S * (1 + P.u) ^ S * P.eta
      + P.u * ∑ i, |((x i).val - (o i).val) * (d i).val| := by
    unfold projErr; ring
  rw [e]
  linarith

/-- The projection of a point onto a line differs in every finite component from the exact foot point `o + T d`, `T = (x - o) · d`, by at
most the stated error. -/
theorem C110_project_line (P : BinPar) {S : ℕ} (o d x : Vec (Flt P.fmt) S) (T : ℚ)
    (hT : T = ∑ i, ((x i).val - (o i).val) * (d i).val) (i : Fin S) (h : (projectPoint o d x i).isFinite) :
    |(projectPoint o d x i).val - ((o i).val + T * (d i).val)| ≤
      ((1 + P.u) ^ 2 - 1) * (|(o i).val| + (|T| + projErr o d x) * |(d i).val|) + (1 + P.u) * P.eta + projErr o d x * |(d i).val| := by
  have hu := P.u_pos
  set t := distanceToProjectedPoint o d x with ht
  have h1 := (C110_point_at_distance P o d t).1 i h
  have h2 : t.isFinite := by
    have e : projectPoint o d x i = o i + d i * t := rfl
    rw [e] at h
    exact (Flt.mul_finite (Flt.add_finite h).2).2
  have h3 := C110_distance_to_projected P o d x h2
  rw [← hT, ← ht] at h3
  have e1 : (pointAtDistance o d t i).val - ((o i).val + T * (d i).val) =
      ((pointAtDistance o d t i).val - ((o i).val + t.val * (d i).val)) + (t.val - T) * (d i).val := by ring
  show |(pointAtDistance o d t i).val - ((o i).val + T * (d i).val)| ≤ _
  rw [e1]
  have h4 := abs_add_le ((pointAtDistance o d t i).val - ((o i).val + t.val * (d i).val)) ((t.val - T) * (d i).val)
  have h5 : |(t.val - T) * (d i).val| ≤ projErr o d x * |(d i).val| := by
    rw [abs_mul]; exact mul_le_mul_of_nonneg_right h3 (abs_nonneg _)
  have h6 : |t.val * (d i).val| ≤ (|T| + projErr o d x) * |(d i).val| := by
    rw [abs_mul]
    refine mul_le_mul_of_nonneg_right ?_ (abs_nonneg _)
    have := abs_sub_abs_le_abs_sub t.val T
    linarith
  have h7 : ((1 + P.u) ^ 2 - 1) * (|(o i).val| + |t.val * (d i).val|) ≤
      ((1 + P.u) ^ 2 - 1) * (|(o i).val| + (|T| + projErr o d x) * |(d i).val|) :=
    mul_le_mul_of_nonneg_left (by linarith) (by nlinarith)
  linarith

/-- The projection onto a plane orthogonal to an axis is exact: the component of the axis becomes the distance of the plane, all others remain
as they are.  So projecting twice changes nothing, and the result is reported to be inside the plane. -/
theorem C110_project_axis_plane (P : BinPar) {S : ℕ} (x : Vec (Flt P.fmt) S) (k : Fin S) (dist : Flt P.fmt)
    (hx : ∀ i, (x i).isFinite) (hd : dist.isFinite) :
    Plane.projectPoint ⟨dist, axisVec P k⟩ x = Function.update x k dist ∧
    Plane.projectPoint ⟨dist, axisVec P k⟩ (Plane.projectPoint ⟨dist, axisVec P k⟩ x) = Plane.projectPoint ⟨dist, axisVec P k⟩ x ∧
    Plane.pointDistance ⟨dist, axisVec P k⟩ (Plane.projectPoint ⟨dist, axisVec P k⟩ x) = 0 := by
  have sub_self' : ∀ {a : Flt P.fmt}, a.isFinite → a - a = 0 := by
    intro a ha
    rw [Flt.sub_eq ha ha, sub_self, BinPar.round_rep P.fmt.rep_zero]; rfl
  have main : ∀ x : Vec (Flt P.fmt) S, (∀ i, (x i).isFinite) →
      Plane.projectPoint ⟨dist, axisVec P k⟩ x = Function.update x k dist := by
    intro x hx
    funext i
    show x i - (if i = k then 1 else 0) * dot x (axisVec P k) + (if i = k then 1 else 0) * dist = _
    rw [dot_axisVec (fun i _ => hx i)]
    by_cases hi : i = k
    · subst hi
      rw [if_pos rfl, Function.update_self, Flt.one_mul', Flt.one_mul', sub_self' (hx i), Flt.zero_add']
    · rw [if_neg hi, Function.update_of_ne hi, Flt.zero_mul_fin (hx k), Flt.zero_mul_fin hd, Flt.sub_eq (hx i) Flt.zero_finite,
        Flt.zero_val, sub_zero, BinPar.round_rep (Flt.rep_val _), Flt.add_comm', Flt.zero_add']
      exact (Flt.eq_fin (hx i)).2.symm
  have hup : ∀ i, (Function.update x k dist i).isFinite := by
    intro i
    by_cases hi : i = k
    · subst hi; rw [Function.update_self]; exact hd
    · rw [Function.update_of_ne hi]; exact hx i
  refine ⟨main x hx, ?_, ?_⟩
  · rw [main x hx, main _ hup, Function.update_idem]
  · rw [main x hx]
    show dot _ (axisVec P k) - dist = 0
    rw [dot_axisVec (fun i _ => hup i), Function.update_self, sub_self' hd]

theorem project_step {x y z Y e : ℚ} (hx : P.Rep x) (hy : |y - Y| ≤ e) :
    |P.fl (P.fl (x - P.fl y) + P.fl z) - (x - Y + z)| ≤
      ((1 + P.u) ^ 3 - 1) * (|x| + (|Y| + e) + |z|) + 2 * (1 + P.u) ^ 2 * P.eta + e := by
  have hu := P.u_pos
  have he := P.eta_pos
  have e1 := BinPar.fl_err_u (P := P) y
  have e2 := BinPar.fl_sub_err_u hx (P.rep_fl y)
  have e3 := BinPar.fl_err_u (P := P) z
  have e4 := BinPar.fl_add_err_u (P.rep_fl (x - P.fl y)) (P.rep_fl z)
  set a := P.fl y
  set b := P.fl (x - a)
  set c := P.fl z
  set f := P.fl (b + c)
  have hy' : |y| ≤ |Y| + e := by have := abs_sub_abs_le_abs_sub y Y; linarith
  have ha : |a| ≤ (1 + P.u) * (|Y| + e) + P.eta := by
    have := abs_sub_abs_le_abs_sub a y
    have := mul_le_mul_of_nonneg_left hy' hu.le
    linarith
  have hxa : |x - a| ≤ |x| + ((1 + P.u) * (|Y| + e) + P.eta) := (abs_sub x a).trans (by linarith)
  have hb : |b - (x - a)| ≤ P.u * (|x| + ((1 + P.u) * (|Y| + e) + P.eta)) := e2.trans (mul_le_mul_of_nonneg_left hxa hu.le)
  have hbb : |b| ≤ (1 + P.u) * (|x| + ((1 + P.u) * (|Y| + e) + P.eta)) := by
    have := abs_sub_abs_le_abs_sub b (x - a)
    linarith
  have hc : |c| ≤ (1 + P.u) * |z| + P.eta := by
    have := abs_sub_abs_le_abs_sub c z
    linarith
  have hbc : |b + c| ≤ (1 + P.u) * (|x| + ((1 + P.u) * (|Y| + e) + P.eta)) + ((1 + P.u) * |z| + P.eta) :=
    (abs_add_le b c).trans (by linarith)
  have hf : |f - (b + c)| ≤ P.u * ((1 + P.u) * (|x| + ((1 + P.u) * (|Y| + e) + P.eta)) + ((1 + P.u) * |z| + P.eta)) :=
    e4.trans (mul_le_mul_of_nonneg_left hbc hu.le)
  have hay : |a - y| ≤ P.u * (|Y| + e) + P.eta := by
    have := mul_le_mul_of_nonneg_left hy' hu.le
    linarith
  have e5 : f - (x - Y + z) = (f - (b + c)) + (b - (x - a)) - (a - y) - (y - Y) + (c - z) := by ring
  have h6 : |f - (x - Y + z)| ≤ |f - (b + c)| + |b - (x - a)| + |a - y| + |y - Y| + |c - z| := by
    rw [e5]
    have k1 := abs_add_le ((f - (b + c)) + (b - (x - a)) - (a - y) - (y - Y)) (c - z)
    have k2 := abs_sub ((f - (b + c)) + (b - (x - a)) - (a - y)) (y - Y)
    have k3 := abs_sub ((f - (b + c)) + (b - (x - a))) (a - y)
    have k4 := abs_add_le (f - (b + c)) (b - (x - a))
    linarith
  have hW : 0 ≤ |Y| + e := (abs_nonneg y).trans hy'
  set W := |Y| + e
  have hx0 := abs_nonneg x
  have hz0 := abs_nonneg z
  have h7 : P.u * ((1 + P.u) * (|x| + ((1 + P.u) * W + P.eta)) + ((1 + P.u) * |z| + P.eta)) +
      P.u * (|x| + ((1 + P.u) * W + P.eta)) + (P.u * W + P.eta) + (P.u * |z| + P.eta) ≤
      ((1 + P.u) ^ 3 - 1) * (|x| + W + |z|) + 2 * (1 + P.u) ^ 2 * P.eta := by
    have k1 : ((1 + P.u) ^ 3 - 1) * (|x| + W + |z|) + 2 * (1 + P.u) ^ 2 * P.eta -
      (P.u * ((1 + P.u) * (|x| + ((1 + P.u) * W + P.eta)) + ((1 + P.u) * |z| + P.eta)) +
      P.u * (|x| + ((1 + P.u) * W + P.eta)) + (P.u * W + P.eta) + (P.u * |z| + P.eta)) =
      P.u * |x| * (1 + 2 * P.u + P.u ^ 2) + P.u * |z| * (1 + 2 * P.u + P.u ^ 2) + P.u * P.eta * (1 + P.u) := by ring
    have k2 : 0 ≤ P.u * |x| * (1 + 2 * P.u + P.u ^ 2) + P.u * |z| * (1 + 2 * P.u + P.u ^ 2) + P.u * P.eta * (1 + P.u) := by positivity
    linarith
  linarith

/-- The projection onto any plane differs in every finite component from the exact result `x - (x·n) n + distance n` by at most the stated
error. -/
theorem C110_project_plane (P : BinPar) {S : ℕ} (p : Plane (Flt P.fmt) S) (x : Vec (Flt P.fmt) S) (X E : ℚ)
    (hX : X = ∑ i, (x i).val * (p.normal i).val)
    (hE : E = ((1 + P.u) ^ S - 1) * (∑ i, |(x i).val * (p.normal i).val|) + S * (1 + P.u) ^ S * P.eta)
    (i : Fin S) (h : (p.projectPoint x i).isFinite) :
    |(p.projectPoint x i).val - ((x i).val - X * (p.normal i).val + p.distance.val * (p.normal i).val)| ≤
      ((1 + P.u) ^ 3 - 1) * (|(x i).val| + (|X| + E) * |(p.normal i).val| + |p.distance.val * (p.normal i).val|) +
        2 * (1 + P.u) ^ 2 * P.eta + E * |(p.normal i).val| := by
  have e : p.projectPoint x i = x i - p.normal i * dot x p.normal + p.normal i * p.distance := rfl
  rw [e] at h ⊢
  obtain ⟨h1, h2⟩ := Flt.add_finite h
  obtain ⟨h3, h4⟩ := Flt.sub_finite h1
  obtain ⟨h5, h6⟩ := Flt.mul_finite h4
  have hd := dot_err x p.normal h6
  rw [Flt.add_val h, Flt.sub_val h1, Flt.mul_val h4, Flt.mul_val h2]
  have hE' : dotErr P S (absDot x p.normal) = E := hE.symm
  have hX' : exactDot x p.normal = X := hX.symm
  rw [hE', hX'] at hd
  have hy : |(p.normal i).val * (dot x p.normal).val - X * (p.normal i).val| ≤ E * |(p.normal i).val| := by
    have : (p.normal i).val * (dot x p.normal).val - X * (p.normal i).val = ((dot x p.normal).val - X) * (p.normal i).val := by ring
    rw [this, abs_mul]
    exact mul_le_mul_of_nonneg_right hd (abs_nonneg _)
  have := project_step (P := P) (z := (p.normal i).val * p.distance.val) (Flt.rep_val (x i)).1 hy
  rw [abs_mul X, ← add_mul, mul_comm (p.normal i).val p.distance.val] at this
  rwa [mul_comm (p.normal i).val p.distance.val]

/-- The center of a segment lies between its end points in every component unless the sum overflows. -/
theorem C110_segment_center (P : BinPar) {S : ℕ} (s : Segment (Flt P.fmt) S) (h : ∀ i, (s.start i + s.end_ i).isFinite) (i : Fin S) :
    (s.center i).isFinite ∧ min (s.start i).val (s.end_ i).val ≤ (s.center i).val ∧ (s.center i).val ≤ max (s.start i).val (s.end_ i).val ∧
    |(s.center i).val - ((s.start i).val + (s.end_ i).val) / 2| ≤
      ((1 + P.u) ^ 2 - 1) * (|(s.start i).val + (s.end_ i).val| / 2) + P.eta := by
  have hu := P.u_pos
  have r1 := Flt.rep_val (s.start i)
  have r2 := Flt.rep_val (s.end_ i)
  have e : s.center i = Flt.round (P.fl ((s.start i).val + (s.end_ i).val) / 2) := by
    show (s.start i + s.end_ i) / 2 = _
    rw [div_two (h i), Flt.add_val (h i)]
  have m1 : P.fmt.rep (min (s.start i).val (s.end_ i).val) := by rcases min_choice (s.start i).val (s.end_ i).val with h | h <;> rw [h] <;> assumption
  have m2 : P.fmt.rep (max (s.start i).val (s.end_ i).val) := by rcases max_choice (s.start i).val (s.end_ i).val with h | h <;> rw [h] <;> assumption
  have a1 := min_le_left (s.start i).val (s.end_ i).val
  have a2 := min_le_right (s.start i).val (s.end_ i).val
  have a3 := le_max_left (s.start i).val (s.end_ i).val
  have a4 := le_max_right (s.start i).val (s.end_ i).val
  have l1 := P.le_fl_of_rep m1.1.double (show 2 * min (s.start i).val (s.end_ i).val ≤ (s.start i).val + (s.end_ i).val by linarith)
  have l2 := P.fl_le_of_rep m2.1.double (show (s.start i).val + (s.end_ i).val ≤ 2 * max (s.start i).val (s.end_ i).val by linarith)
  have := Flt.round_between (q := P.fl ((s.start i).val + (s.end_ i).val) / 2) m1 m2 (by linarith) (by linarith)
  rw [e, this.2.1]
  refine ⟨this.1, this.2.2.1, this.2.2.2, ?_⟩
  have e1 := BinPar.fl_add_err_u r1.1 r2.1
  have e2 := BinPar.fl_err_u (P := P) (P.fl ((s.start i).val + (s.end_ i).val) / 2)
  set q := (s.start i).val + (s.end_ i).val
  have e3 : |P.fl q| ≤ (1 + P.u) * |q| := by have := abs_sub_abs_le_abs_sub (P.fl q) q; linarith
  have e4 : |P.fl q / 2| ≤ (1 + P.u) * |q| / 2 := by rw [abs_div, abs_two]; linarith
  have e5 := mul_le_mul_of_nonneg_left e4 hu.le
  have e6 := abs_add_le (P.fl (P.fl q / 2) - P.fl q / 2) ((P.fl q - q) / 2)
  have e7 : |(P.fl q - q) / 2| ≤ P.u * |q| / 2 := by rw [abs_div, abs_two]; linarith
  have e8 : P.fl (P.fl q / 2) - P.fl q / 2 + (P.fl q - q) / 2 = P.fl (P.fl q / 2) - q / 2 := by ring
  rw [e8] at e6
  linarith

/-- A point of a line need not be its own projection, even on an axis: the projection of `2⁻⁶⁰` onto the line through 1 in the direction 1 is 0. -/
theorem C110_project_line_fails : ∃ o d x : Vec (Flt binary64.fmt) 1, (o 0).val = 1 ∧ (d 0).val = 1 ∧ (x 0).isFinite ∧
    (x 0).val = 2 ^ (-60 : ℤ) ∧ projectPoint o d x 0 = 0 := by
  refine ⟨fun _ => 1, fun _ => 1, fun _ => dbl 1 (-60), rfl, rfl, trivial, by rw [dbl_val]; norm_num, ?_⟩
  have h1 : dbl 1 (-60) - 1 = -1 := by
    rw [Flt.sub_eq (a := dbl 1 (-60)) trivial Flt.one_finite, dbl_val, Flt.one_val]
    have r : binary64.fmt.rep (-1) := by
      have := (Flt.rep_val (-(1 : Flt binary64.fmt)))
      rwa [Flt.neg_val, Flt.one_val] at this
    refine Flt.round_to r ?_
    have e : (((1 : ℤ) : ℚ) * 2 ^ (-60 : ℤ) - 1) = -(1 - 1 / 2 ^ 60) := by norm_num
    rw [e, binary64.fl_neg, BinPar.fl_eval (P := binary64) (-53) (2 ^ 53) (by norm_num [binary64]) (by norm_num [binary64, abs_of_pos])
      (by norm_num [binary64, abs_of_pos]) (by norm_num [abs_of_pos])]
    norm_num
  have h2 : projectPoint (S := 1) (fun _ => (1 : Flt binary64.fmt)) (fun _ => 1) (fun _ => dbl 1 (-60)) 0 = 1 + 1 * (0 + (dbl 1 (-60) - 1) * 1) := by
    show (1 : Flt binary64.fmt) + 1 * dot _ _ = _
    rw [dot_succ']
    rfl
  rw [h2, h1, Flt.mul_one', Flt.zero_add', Flt.one_mul', Flt.add_eq Flt.one_finite (Flt.neg_finite.2 Flt.one_finite), Flt.neg_val,
    Flt.one_val, add_neg_cancel, BinPar.round_rep binary64.fmt.rep_zero]
  rfl

/-! ### Concrete cases -/

/-- The hypotheses of `C110_point_at_distance`, `C110_project_axis_plane` and `C110_segment_center`. -/
example : (∀ i, (rayS.origin i).isFinite) ∧ (∀ i, (rayS.direction i).isFinite) := ⟨fun i => (rayS_ok.1 i).1, fun i => (rayS_ok.2.1 i).1⟩

/-- The finiteness hypotheses are met by the numbers one and two. -/
theorem one_sum_finite (P : BinPar) : ((1 : Flt P.fmt) + 1).isFinite ∧ ((1 : Flt P.fmt) + 1).val = 2 := by
  have h := Flt.int_finite (P := P) (n := 2) (by have := P.hp; calc |(2 : ℤ)| = 2 ^ 1 := by norm_num
                                                   _ ≤ 2 ^ P.p := pow_le_pow_right₀ (by norm_num) (by omega))
  rw [Flt.add_eq Flt.one_finite Flt.one_finite, Flt.one_val]
  norm_num at h ⊢
  exact h

example : ∃ (o d : Vec (Flt binary64.fmt) 1) (t : Flt binary64.fmt), (pointAtDistance o d t 0).isFinite ∧ (pointAtDistance o d t 0).val = 2 := by
  refine ⟨fun _ => 1, fun _ => 1, 1, ?_⟩
  show ((1 : Flt binary64.fmt) + 1 * 1).isFinite ∧ ((1 : Flt binary64.fmt) + 1 * 1).val = 2
  rw [Flt.one_mul']
  exact one_sum_finite binary64

example : ∃ o d x : Vec (Flt binary64.fmt) 1, (distanceToProjectedPoint o d x).isFinite ∧ (projectPoint o d x 0).isFinite := by
  obtain ⟨o, d, x, -, -, -, -, h⟩ := C110_project_line_fails
  have h1 : (projectPoint o d x 0).isFinite := by rw [h]; exact Flt.zero_finite
  have e : projectPoint o d x 0 = o 0 + d 0 * distanceToProjectedPoint o d x := rfl
  exact ⟨o, d, x, (Flt.mul_finite (Flt.add_finite (e ▸ h1)).2).2, h1⟩

example : ∃ (p : Plane (Flt binary64.fmt) 1) (x : Vec (Flt binary64.fmt) 1), (p.projectPoint x 0).isFinite := by
  refine ⟨⟨1, axisVec binary64 0⟩, fun _ => 0, ?_⟩
  rw [(C110_project_axis_plane binary64 _ 0 1 (fun _ => Flt.zero_finite) Flt.one_finite).1, Function.update_self]
  exact Flt.one_finite

example : ∃ s : Segment (Flt binary64.fmt) 1, ∀ i, (s.start i + s.end_ i).isFinite :=
  ⟨⟨fun _ => 1, fun _ => 1⟩, fun _ => (one_sum_finite binary64).1⟩

end vm
