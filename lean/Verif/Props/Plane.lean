import Verif.Lemmas.Geom
import Verif.Lemmas.Scalar
import Verif.Props.Sort

/-! # C54, C55, C56: planes -/

universe u

set_option linter.unusedSectionVars false
set_option linter.unusedSimpArgs false

namespace vm

/-! ### C54 -/
section C54

theorem cross_dot_left {K : Type u} [CommRing K] (a b : Vec K 3) : dot (cross a b) a = 0 := by
  rw [dot3]; simp only [cross_0, cross_1, cross_2]; ring

theorem cross_dot_right {K : Type u} [CommRing K] (a b : Vec K 3) : dot (cross a b) b = 0 := by
  rw [dot3]; simp only [cross_0, cross_1, cross_2]; ring

theorem lagrange {K : Type u} [CommRing K] (a b : Vec K 3) :
    dot (cross a b) (cross a b) = dot a a * dot b b - dot a b ^ 2 := by
  simp only [dot3, cross_0, cross_1, cross_2]; ring

/-- Specification: the plane contains the three points, its normal is a unit vector orthogonal to both
edges, and the points are in clockwise order seen from the side the normal points to. -/
def GoodPlane (pl : Plane ℝ 3) (p1 p2 p3 : Vec ℝ 3) : Prop :=
  dot pl.normal pl.normal = 1 ∧ dot pl.normal (p2 - p1) = 0 ∧ dot pl.normal (p3 - p1) = 0 ∧
  0 < dot pl.normal (cross (p3 - p1) (p2 - p1)) ∧
  dot p1 pl.normal = pl.distance ∧ dot p2 pl.normal = pl.distance ∧ dot p3 pl.normal = pl.distance

/-- `plane_normal` succeeds iff the edges are non-zero and the sine of the angle between them is at
least `epsilon`. -/
theorem planeNormal_fst (p1 p2 p3 : Vec ℝ 3) (epsilon : ℝ) :
    (Plane.planeNormal p1 p2 p3 epsilon).1 = true ↔
      p2 ≠ p1 ∧ p3 ≠ p1 ∧
      epsilon * (length (p3 - p1) * length (p2 - p1)) ≤ length (cross (p3 - p1) (p2 - p1)) := by
  unfold Plane.planeNormal
  by_cases h0 : length (p3 - p1) * length (p2 - p1) = 0
  · simp only [h0, if_true]
    rw [mul_eq_zero, length_eq_zero, length_eq_zero, sub_eq_zero, sub_eq_zero] at h0
    constructor
    · intro h; cases h
    · rintro ⟨h1, h2, _⟩; rcases h0 with h | h <;> contradiction
  · have hpos : 0 < length (p3 - p1) * length (p2 - p1) :=
      lt_of_le_of_ne (mul_nonneg (length_nonneg _) (length_nonneg _)) (Ne.symm h0)
    have h1 : p2 ≠ p1 := fun h => h0 (by rw [h, sub_self, length_eq_zero.2 rfl, mul_zero])
    have h2 : p3 ≠ p1 := fun h => h0 (by rw [h, sub_self, length_eq_zero.2 rfl, zero_mul])
    simp only [h0, if_false]
    rw [abs_of_nonneg (div_nonneg (length_nonneg _) hpos.le)]
    by_cases hs : length (cross (p3 - p1) (p2 - p1)) / (length (p3 - p1) * length (p2 - p1)) < epsilon
    · simp only [hs, if_true]
      rw [div_lt_iff₀ hpos] at hs
      simp [hs]
    · simp only [hs, if_false]
      rw [not_lt, le_div_iff₀ hpos] at hs
      simp [h1, h2, hs]

theorem fromPoints_fst (p1 p2 p3 : Vec ℝ 3) :
    (Plane.fromPoints p1 p2 p3).1 = (Plane.planeNormal p1 p2 p3 Plane.angleEpsilon).1 := by
  unfold Plane.fromPoints
  rcases h : (Plane.planeNormal p1 p2 p3 Plane.angleEpsilon).1 <;> simp [h]

theorem fromPoints_of_success {p1 p2 p3 : Vec ℝ 3} (h : (Plane.fromPoints p1 p2 p3).1 = true) :
    cross (p3 - p1) (p2 - p1) ≠ 0 ∧
    Plane.fromPoints p1 p2 p3 = (true, some (Plane.ofAnchor p1
      ((length (cross (p3 - p1) (p2 - p1)))⁻¹ • cross (p3 - p1) (p2 - p1)))) := by
  rw [fromPoints_fst] at h
  obtain ⟨h1, h2, h3⟩ := (planeNormal_fst _ _ _ _).1 h
  have hpos : 0 < length (p3 - p1) * length (p2 - p1) :=
    mul_pos (length_pos (sub_ne_zero.2 h2)) (length_pos (sub_ne_zero.2 h1))
  have he : (0 : ℝ) < Plane.angleEpsilon := by norm_num [Plane.angleEpsilon]
  have hc : cross (p3 - p1) (p2 - p1) ≠ 0 := by
    intro hc
    rw [hc, length_eq_zero.2 rfl] at h3
    exact absurd h3 (not_le_of_gt (mul_pos he hpos))
  refine ⟨hc, ?_⟩
  have hs : ¬ |length (cross (p3 - p1) (p2 - p1)) / (length (p3 - p1) * length (p2 - p1))| < Plane.angleEpsilon := by
    rw [not_lt, abs_of_nonneg (div_nonneg (length_nonneg _) hpos.le), le_div_iff₀ hpos]
    exact h3
  unfold Plane.fromPoints Plane.planeNormal
  simp only [hpos.ne', if_false, hs, normalize_of_ne hc]
  rfl

/-- If `from_points` reports success, the result is the plane through the three points, with unit normal
and clockwise orientation. -/
theorem C54_success (p1 p2 p3 : Vec ℝ 3) (h : (Plane.fromPoints p1 p2 p3).1 = true) :
    ∃ pl, Plane.fromPoints p1 p2 p3 = (true, some pl) ∧ GoodPlane pl p1 p2 p3 := by
  obtain ⟨hc, he⟩ := fromPoints_of_success h
  have hl := length_pos hc
  refine ⟨_, he, dot_unit hc, ?_, ?_, ?_, rfl, ?_, ?_⟩
  · simp only [Plane.ofAnchor, dot_smul_left, cross_dot_right, mul_zero]
  · simp only [Plane.ofAnchor, dot_smul_left, cross_dot_left, mul_zero]
  · simp only [Plane.ofAnchor, dot_smul_left]
    exact mul_pos (inv_pos.2 hl) (dot_self_pos hc)
  · have : dot (p2 - p1) (cross (p3 - p1) (p2 - p1)) = 0 := by rw [dot_comm, cross_dot_right]
    simp only [Plane.ofAnchor, dot_smul_right]
    rw [dot_sub_left] at this
    rw [sub_eq_zero.1 this]
  · have : dot (p3 - p1) (cross (p3 - p1) (p2 - p1)) = 0 := by rw [dot_comm, cross_dot_left]
    simp only [Plane.ofAnchor, dot_smul_right]
    rw [dot_sub_left] at this
    rw [sub_eq_zero.1 this]

/-- `from_points` succeeds exactly if both edges are non-zero and enclose an angle whose sine is at least
1e-8 (the left side of the inequality is `1e-8 |a| |b|`, the right side `|a| |b| |sin|`). -/
theorem C54_success_iff (p1 p2 p3 : Vec ℝ 3) :
    (Plane.fromPoints p1 p2 p3).1 = true ↔
      p2 ≠ p1 ∧ p3 ≠ p1 ∧
      (1 / 10 ^ 8 : ℝ) ^ 2 * (dot (p3 - p1) (p3 - p1) * dot (p2 - p1) (p2 - p1)) ≤
        dot (p3 - p1) (p3 - p1) * dot (p2 - p1) (p2 - p1) - dot (p3 - p1) (p2 - p1) ^ 2 := by
  rw [fromPoints_fst, planeNormal_fst]
  have key : ∀ a b : Vec ℝ 3, (Plane.angleEpsilon * (length a * length b) ≤ length (cross a b)) ↔
      (1 / 10 ^ 8 : ℝ) ^ 2 * (dot a a * dot b b) ≤ dot a a * dot b b - dot a b ^ 2 := by
    intro a b
    rw [← lagrange, ← length_sq, ← length_sq, ← length_sq, ← mul_pow, ← mul_pow]
    exact (pow_le_pow_iff_left₀ (mul_nonneg (by norm_num [Plane.angleEpsilon])
      (mul_nonneg (length_nonneg _) (length_nonneg _))) (length_nonneg _) (by norm_num)).symm
  rw [key]

/-- `from_points` fails for colinear points, including coinciding points, and then returns the zero plane. -/
theorem C54_colinear (o d : Vec ℝ 3) (t1 t2 t3 : ℝ) :
    Plane.fromPoints (o + t1 • d) (o + t2 • d) (o + t3 • d) = (false, some Plane.zero) := by
  have hf : (Plane.fromPoints (o + t1 • d) (o + t2 • d) (o + t3 • d)).1 ≠ true := by
    intro h
    apply (fromPoints_of_success h).1
    funext i
    fin_cases i <;> simp [cross] <;> ring
  have hp := hf
  rw [fromPoints_fst] at hp
  unfold Plane.fromPoints
  simp [hp]

/-- `from_points` on a range uses the first three points and fails if there are fewer. -/
theorem C54_range (l : List (Vec ℝ 3)) :
    ((Plane.fromPointsRange l).1 = true →
      ∃ p1 p2 p3 rest pl, l = p1 :: p2 :: p3 :: rest ∧ Plane.fromPointsRange l = (true, some pl) ∧
        GoodPlane pl p1 p2 p3) ∧
    (l.length < 3 → (Plane.fromPointsRange l).1 = false) := by
  constructor
  · intro h
    rcases l with _ | ⟨p1, _ | ⟨p2, _ | ⟨p3, rest⟩⟩⟩
    · cases h
    · cases h
    · cases h
    · obtain ⟨pl, h1, h2⟩ := C54_success p1 p2 p3 h
      exact ⟨p1, p2, p3, rest, pl, rfl, h1, h2⟩
  · intro h
    rcases l with _ | ⟨p1, _ | ⟨p2, _ | ⟨p3, rest⟩⟩⟩
    · rfl
    · rfl
    · rfl
    · simp at h; omega

/-- Three points for which `from_points` succeeds, in clockwise order seen from `+z`. -/
example : (Plane.fromPoints ![0, 0, 0] ![0, 1, 0] ![1, 0, 0]).1 = true := by
  rw [C54_success_iff]
  refine ⟨fun h => ?_, fun h => ?_, ?_⟩
  · have := congrFun h 1; simp at this
  · have := congrFun h 0; simp at this
  · rw [dot3, dot3, dot3]
    simp only [Pi.sub_apply, Matrix.cons_val_zero, Matrix.cons_val_one, Matrix.cons_val]
    norm_num

/-- `orthogonal_plane` and `horizontal_plane` contain the position and are orthogonal to the direction;
`orthogonal_plane` is NaN only for the zero direction. -/
theorem C54_orthogonal (position direction : Vec ℝ 3) :
    (direction ≠ 0 → ∃ pl, ∃ k : ℝ, Plane.orthogonal position direction = some pl ∧ 0 < k ∧ pl.normal = k • direction ∧
      dot pl.normal pl.normal = 1 ∧ dot position pl.normal = pl.distance) ∧
    (Plane.orthogonal position 0 = none) ∧
    (∀ q : Vec ℝ 3, dot q (Plane.horizontal position).normal = (Plane.horizontal position).distance ↔
      q 2 = position 2) := by
  refine ⟨fun h => ⟨Plane.ofAnchor position ((length direction)⁻¹ • direction), (length direction)⁻¹, ?_,
    inv_pos.2 (length_pos h), rfl, dot_unit h, rfl⟩, ?_, fun q => ?_⟩
  · unfold Plane.orthogonal; rw [normalize_of_ne h]; rfl
  · unfold Plane.orthogonal; rw [normalize_zero]; rfl
  · simp only [Plane.horizontal, Plane.ofAnchor, dot3, vaxis]
    simp

end C54

/-! ### C55 -/
section C55
variable {K : Type u} [Field K] [LinearOrder K] [IsStrictOrderedRing K] {S : ℕ}

/-- `point_distance` is the signed distance: its absolute value is the smallest distance between the point
and a point of the plane, it is attained only by `project_point`, and the sign tells the side. -/
theorem C55_distance (p : Plane K S) (hn : dot p.normal p.normal = 1) (q : Vec K S) :
    dot (p.projectPoint q) p.normal = p.distance ∧
    q = p.projectPoint q + p.pointDistance q • p.normal ∧
    squaredDistance q (p.projectPoint q) = p.pointDistance q ^ 2 ∧
    ∀ r : Vec K S, dot r p.normal = p.distance →
      p.pointDistance q ^ 2 ≤ squaredDistance q r ∧
      (squaredDistance q r = p.pointDistance q ^ 2 → r = p.projectPoint q) := by
  have hp : q - p.projectPoint q = p.pointDistance q • p.normal := by
    unfold Plane.projectPoint Plane.pointDistance
    simp only [vscale_eq_smul]
    rw [sub_smul]; abel
  have hon : dot (p.projectPoint q) p.normal = p.distance := by
    unfold Plane.projectPoint
    simp only [vscale_eq_smul, dot_add_left, dot_sub_left, dot_smul_left, hn]; ring
  refine ⟨hon, by rw [← hp]; abel, ?_, fun r hr => ?_⟩
  · show dot (q - _) (q - _) = _
    rw [hp, dot_smul_left, dot_smul_right, hn]; ring
  · have e : squaredDistance q r = p.pointDistance q ^ 2 + dot (p.projectPoint q - r) (p.projectPoint q - r) := by
      show dot (q - r) (q - r) = _
      have e1 : q - r = p.pointDistance q • p.normal + (p.projectPoint q - r) := by rw [← hp]; abel
      have e2 : dot p.normal (p.projectPoint q - r) = 0 := by
        rw [dot_comm, dot_sub_left, hon, hr, sub_self]
      rw [e1, dot_add_left, dot_add_right, dot_add_right, dot_smul_left, dot_smul_left, dot_smul_right,
        dot_smul_right, e2, dot_comm (p.projectPoint q - r) p.normal, e2, hn]
      ring
    rw [e]
    refine ⟨le_add_of_nonneg_right (dot_self_nonneg _), fun h => ?_⟩
    have : dot (p.projectPoint q - r) (p.projectPoint q - r) = 0 := by linarith
    exact (sub_eq_zero.1 (dot_self_eq_zero.1 this)).symm

/-- `flip` negates the distance of every point, hence keeps the point set, and is an involution. -/
theorem C55_flip (p : Plane K S) (q : Vec K S) :
    p.flip.pointDistance q = -p.pointDistance q ∧ (p.flip.pointDistance q = 0 ↔ p.pointDistance q = 0) ∧
    p.flip.flip = p := by
  have h : p.flip.pointDistance q = -p.pointDistance q := by
    simp only [Plane.pointDistance, Plane.flip, dot_neg_right]; ring
  refine ⟨h, by rw [h, neg_eq_zero], ?_⟩
  simp [Plane.flip]

/-- The anchor lies on the plane, and a plane given by an anchor contains it. -/
theorem C55_anchor (p : Plane K S) (hn : dot p.normal p.normal = 1) (a n : Vec K S) :
    p.pointDistance p.anchor = 0 ∧ (Plane.ofAnchor a n).pointDistance a = 0 := by
  constructor
  · simp only [Plane.pointDistance, Plane.anchor, vscale_eq_smul, dot_smul_left, hn]; ring
  · simp [Plane.pointDistance, Plane.ofAnchor]

/-- Projecting along a direction moves the point only along that direction and lands on the plane; the
result is NaN exactly if the direction is nearly parallel to the plane. -/
theorem C55_project_along (az : K) (haz : 0 ≤ az) (p : Plane K S) (hn : dot p.normal p.normal = 1) (q d : Vec K S) :
    (|dot d p.normal| ≤ az → p.projectPointAlong az q d = none) ∧
    (az < |dot d p.normal| → ∃ r, ∃ t : K, p.projectPointAlong az q d = some r ∧ r = q + t • d ∧
      dot r p.normal = p.distance ∧ ∀ t' : K, dot (q + t' • d) p.normal = p.distance → t' = t) := by
  unfold Plane.projectPointAlong
  constructor
  · intro h
    simp only
    rw [if_pos (by rw [isZero_exact_nonneg _ haz]; exact decide_eq_true h)]
  · intro h
    have h0 : dot d p.normal ≠ 0 := by
      intro h0; rw [h0, abs_zero] at h; exact absurd h (not_lt_of_ge haz)
    simp only
    rw [if_neg (by rw [isZero_exact_nonneg _ haz, decide_eq_true_eq]; exact not_le_of_gt h)]
    refine ⟨_, (dot (vscale p.normal p.distance - q) p.normal) / dot d p.normal, rfl, by rw [vscale_eq_smul], ?_, ?_⟩
    · simp only [vscale_eq_smul, dot_add_left, dot_smul_left, dot_sub_left, hn]
      field_simp; ring
    · intro t' ht
      rw [eq_div_iff h0]
      simp only [vscale_eq_smul, dot_add_left, dot_smul_left, dot_sub_left, hn] at ht ⊢
      linarith

/-- Projecting a vector yields a vector parallel to the plane, differing from it by a multiple of the normal
(or of the given direction). -/
theorem C55_project_vector (az : K) (haz : 0 ≤ az) (p : Plane K S) (hn : dot p.normal p.normal = 1) (v d : Vec K S) :
    dot (p.projectVector v) p.normal = 0 ∧ (∃ t : K, p.projectVector v = v + t • p.normal) ∧
    (az < |dot d p.normal| → ∃ r, ∃ t : K, p.projectVectorAlong az v d = some r ∧ dot r p.normal = 0 ∧ r = v + t • d) := by
  have ha : dot p.anchor p.normal = p.distance := sub_eq_zero.1 (C55_anchor p hn 0 0).1
  obtain ⟨h1, h2, -⟩ := C55_distance p hn (p.anchor + v)
  refine ⟨?_, ⟨-p.pointDistance (p.anchor + v), ?_⟩, fun h => ?_⟩
  · unfold Plane.projectVector
    rw [dot_sub_left, h1, ha, sub_self]
  · unfold Plane.projectVector
    have : p.projectPoint (p.anchor + v) = p.anchor + v - p.pointDistance (p.anchor + v) • p.normal :=
      eq_sub_of_add_eq h2.symm
    rw [this, neg_smul]; abel
  · obtain ⟨r, t, hr, h3, h4, -⟩ := (C55_project_along az haz p hn (p.anchor + v) d).2 h
    refine ⟨r - p.anchor, t, ?_, ?_, ?_⟩
    · unfold Plane.projectVectorAlong; rw [hr]; rfl
    · rw [dot_sub_left, h4, ha, sub_self]
    · rw [h3]; abel

/-- `at(point, axis)` returns the coordinate that puts the point on the plane whenever the normal has a
non-zero component for the axis (else 0); it never reads beyond the point. -/
theorem C55_at (junk : ℕ → K) (p : Plane K (S + 1)) (point : Vec K S) (axis : Fin (S + 1)) :
    (p.normal axis ≠ 0 → p.pointDistance (Fin.insertNth axis (p.at_ junk point axis) point) = 0) ∧
    (p.normal axis = 0 → p.at_ junk point axis = 0) ∧
    (∀ junk', p.at_ junk point axis = p.at_ junk' point axis) := by
  have key : ∀ junk : ℕ → K, p.normal axis ≠ 0 → p.at_ junk point axis =
      (p.distance - ∑ i : Fin S, p.normal (axis.succAbove i) * point i) / p.normal axis := by
    intro junk h
    unfold Plane.at_
    simp only [exact_eq, h, decide_false, Bool.false_eq_true, if_false]
    rw [at_loop axis.val (fun k => if h : k < S then point ⟨k, h⟩ else junk k) (S + 1) p.normal]
    simp only
    congr 2
    rw [Fin.sum_univ_succAbove _ axis, if_pos rfl, zero_add]
    refine Finset.sum_congr rfl fun i _ => ?_
    have hne : ¬ (axis.succAbove i).val = axis.val := fun h => Fin.succAbove_ne axis i (Fin.ext h)
    rw [if_neg hne]
    have hidx : (if (axis.succAbove i).val < axis.val then (axis.succAbove i).val
        else (axis.succAbove i).val - 1) = i.val := by
      rcases lt_or_ge i.castSucc axis with hlt | hge
      · rw [Fin.succAbove_of_castSucc_lt axis i hlt]
        have : i.val < axis.val := hlt
        simp [this]
      · rw [Fin.succAbove_of_le_castSucc axis i hge]
        have : axis.val ≤ i.val := hge
        have h2 : ¬ i.val + 1 < axis.val := by omega
        simp [h2]
    rw [hidx, dif_pos i.2]
  refine ⟨fun h => ?_, fun h => ?_, fun junk' => ?_⟩
  · unfold Plane.pointDistance
    rw [dot_eq_sum, Fin.sum_univ_succAbove _ axis, Fin.insertNth_apply_same, key junk h]
    simp only [Fin.insertNth_apply_succAbove]
    rw [div_mul_cancel₀ _ h]
    rw [sub_eq_zero, sub_add_eq_add_sub, sub_eq_iff_eq_add]
    congr 1
    exact Finset.sum_congr rfl fun i _ => mul_comm _ _
  · unfold Plane.at_; simp [h]
  · by_cases h : p.normal axis = 0
    · unfold Plane.at_; simp [h]
    · rw [key _ h, key _ h]

/-- `point_status` partitions space: above the plane by more than epsilon, below by more than epsilon, or
within epsilon of the plane; flipping the plane exchanges above and below. -/
theorem C55_status (p : Plane K S) (q : Vec K S) (eps : K) (heps : 0 ≤ eps) :
    (p.pointStatus q eps = .above ↔ eps < p.pointDistance q) ∧
    (p.pointStatus q eps = .below ↔ p.pointDistance q < -eps) ∧
    (p.pointStatus q eps = .inside ↔ |p.pointDistance q| ≤ eps) ∧
    (p.flip.pointStatus q eps = .above ↔ p.pointStatus q eps = .below) ∧
    (p.flip.pointStatus q eps = .inside ↔ p.pointStatus q eps = .inside) := by
  have ha : ∀ p : Plane K S, (p.pointStatus q eps = .above ↔ eps < p.pointDistance q) := by
    intro p; unfold Plane.pointStatus; simp only [exact_lt, decide_eq_true_eq]; split_ifs <;> simp_all
  have hb : ∀ p : Plane K S, (p.pointStatus q eps = .below ↔ p.pointDistance q < -eps) := by
    intro p; unfold Plane.pointStatus; simp only [exact_lt, decide_eq_true_eq]
    split_ifs with h1 h2
    · simp only [reduceCtorEq, false_iff, not_lt]; linarith
    · simp [h2]
    · simp [h2]
  have hi : ∀ p : Plane K S, (p.pointStatus q eps = .inside ↔ |p.pointDistance q| ≤ eps) := by
    intro p; unfold Plane.pointStatus; simp only [exact_lt, decide_eq_true_eq, abs_le]
    split_ifs with h1 h2
    · simp only [reduceCtorEq, false_iff, not_and, not_le]; exact fun _ => h1
    · simp only [reduceCtorEq, false_iff, not_and, not_le]; intro h; linarith
    · simp only [true_iff]; exact ⟨not_lt.1 h2, not_lt.1 h1⟩
  have hf := (C55_flip p q).1
  refine ⟨ha p, hb p, hi p, ?_, ?_⟩
  · rw [ha, hb, hf]; constructor <;> intro h <;> linarith
  · rw [hi, hi, hf, abs_neg]

example : (⟨2, ![0, 3/5, 4/5]⟩ : Plane ℚ 3).pointDistance ![7, 5, 10] = 9 ∧
    dot (![0, 3/5, 4/5] : Vec ℚ 3) ![0, 3/5, 4/5] = 1 ∧
    (⟨2, ![0, 3/5, 4/5]⟩ : Plane ℚ 3).pointStatus ![7, 5, 10] (1 / 10000) = .above ∧
    (⟨2, ![0, 3/5, 4/5]⟩ : Plane ℚ 3).at_ (fun _ => 0) ![7, 2] 2 = 1 := by
  refine ⟨?_, ?_, ?_, ?_⟩ <;> decide +kernel

end C55

/-! ### C56 -/
section C56
variable {S : ℕ}

/-- The linear part of an affine matrix multiplies all inner products by `c`: a similarity (a rigid motion
or reflection if `c = 1`). -/
def IsSimilarity (m : Mat ℝ (S + 1) (S + 1)) (c : ℝ) : Prop :=
  IsAffine m ∧ ∀ u v : Vec ℝ S,
    dot (mmulPoint (stripTranslation m) u) (mmulPoint (stripTranslation m) v) = c * dot u v

/-- Distance of an image point from the transformed plane. -/
theorem transform_distance {m : Mat ℝ (S + 1) (S + 1)} (hm : IsAffine m) (p : Plane ℝ S)
    (hL : mmulPoint (stripTranslation m) p.normal ≠ 0) :
    ∃ p', p.transform m = some p' ∧ dot p'.normal p'.normal = 1 ∧ ∀ q,
      p'.pointDistance (mmulPoint m q) = (length (mmulPoint (stripTranslation m) p.normal))⁻¹ *
        dot (mmulPoint (stripTranslation m) (q - p.anchor)) (mmulPoint (stripTranslation m) p.normal) := by
  refine ⟨Plane.ofAnchor (mmulPoint m p.anchor) ((length (mmulPoint (stripTranslation m) p.normal))⁻¹ •
      mmulPoint (stripTranslation m) p.normal), ?_, ?_, ?_⟩
  · unfold Plane.transform; rw [normalize_of_ne hL]; rfl
  · exact dot_unit hL
  · intro q
    simp only [Plane.pointDistance, Plane.ofAnchor]
    rw [← dot_sub_left, affine_sub hm, dot_smul_right]

/-- For similarities (in particular for rigid motions): the transformed plane has a unit normal, the
distance of every image point is the scaled distance of the point, and so a point lies on the plane iff its
image lies on the transformed plane.  Missing for the full claim: other invertible affine maps, for which it
is false (`C56_fails`, `C56_characterisation`). -/
theorem C56_similarity_partial (m : Mat ℝ (S + 1) (S + 1)) (c : ℝ) (hc : 0 < c) (hm : IsSimilarity m c)
    (p : Plane ℝ S) (hn : dot p.normal p.normal = 1) :
    ∃ p', p.transform m = some p' ∧ dot p'.normal p'.normal = 1 ∧
      (∀ q, p'.pointDistance (mmulPoint m q) = Real.sqrt c * p.pointDistance q) ∧
      ∀ q, p'.pointDistance (mmulPoint m q) = 0 ↔ p.pointDistance q = 0 := by
  obtain ⟨haff, hdot⟩ := hm
  have hlen : length (mmulPoint (stripTranslation m) p.normal) = Real.sqrt c := by
    show Real.sqrt (dot _ _) = _
    rw [hdot, hn, mul_one]
  have hs : Real.sqrt c ≠ 0 := (Real.sqrt_pos.2 hc).ne'
  have hL : mmulPoint (stripTranslation m) p.normal ≠ 0 := by
    intro h; rw [h, length_eq_zero.2 rfl] at hlen; exact hs hlen.symm
  obtain ⟨p', h1, h2, h3⟩ := transform_distance haff p hL
  have h4 : ∀ q, p'.pointDistance (mmulPoint m q) = Real.sqrt c * p.pointDistance q := by
    intro q
    rw [h3, hdot, hlen]
    have ha : dot p.anchor p.normal = p.distance := sub_eq_zero.1 (C55_anchor p hn 0 0).1
    have : dot (q - p.anchor) p.normal = p.pointDistance q := by
      rw [dot_sub_left, ha]; rfl
    rw [this]
    have : c = Real.sqrt c * Real.sqrt c := (Real.mul_self_sqrt hc.le).symm
    rw [← mul_assoc, inv_mul_eq_div]
    congr 1
    rw [div_eq_iff hs]; exact this
  refine ⟨p', h1, h2, h4, fun q => ?_⟩
  rw [h4, mul_eq_zero]
  simp [hs]

/-- Exactly when does `transform` map the points of a plane to the points of the result?  If and only if the
linear part maps the normal to a vector orthogonal to the image of the plane. -/
theorem C56_characterisation (m : Mat ℝ (S + 1) (S + 1)) (hm : IsAffine m)
    (p : Plane ℝ S) (hn : dot p.normal p.normal = 1) (hL : mmulPoint (stripTranslation m) p.normal ≠ 0) :
    ∃ p', p.transform m = some p' ∧
      ((∀ q, p.pointDistance q = 0 ↔ p'.pointDistance (mmulPoint m q) = 0) ↔
        ∀ v, dot v p.normal = 0 →
          dot (mmulPoint (stripTranslation m) v) (mmulPoint (stripTranslation m) p.normal) = 0) := by
  obtain ⟨p', h1, -, h3⟩ := transform_distance hm p hL
  have hl : (length (mmulPoint (stripTranslation m) p.normal))⁻¹ ≠ 0 := inv_ne_zero (length_pos hL).ne'
  have ha : dot p.anchor p.normal = p.distance := sub_eq_zero.1 (C55_anchor p hn 0 0).1
  have hd : ∀ q, p.pointDistance q = dot (q - p.anchor) p.normal := fun q => by
    rw [dot_sub_left, ha]; rfl
  refine ⟨p', h1, ?_, ?_⟩
  · intro h v hv
    have h' := (h (p.anchor + v)).1 (by rw [hd, add_sub_cancel_left, hv])
    rw [h3, add_sub_cancel_left, mul_eq_zero] at h'
    exact h'.resolve_left hl
  · intro h q
    rw [h3, mul_eq_zero, or_iff_right hl, hd]
    refine ⟨fun hq => h _ hq, fun hq => ?_⟩
    -- split `q - anchor` into its normal and tangential part
    set v := q - p.anchor
    have hw : dot (v - dot v p.normal • p.normal) p.normal = 0 := by
      rw [dot_sub_left, dot_smul_left, hn]; ring
    have hw' := h _ hw
    have e : v = dot v p.normal • p.normal + (v - dot v p.normal • p.normal) := by abel
    rw [e, strip_add hm, strip_smul hm, dot_add_left, dot_smul_left, hw', add_zero, mul_eq_zero] at hq
    exact hq.resolve_right fun h0 => hL (dot_self_eq_zero.1 h0)

/-- The claim is false for a non-uniform scaling: a point of the plane is mapped off the transformed plane. -/
theorem C56_fails : ∃ (m : Mat ℝ 4 4) (p p' : Plane ℝ 3) (q : Vec ℝ 3), IsAffine m ∧
    (toMatrix m).det ≠ 0 ∧ dot p.normal p.normal = 1 ∧ p.transform m = some p' ∧
    p.pointDistance q = 0 ∧ p'.pointDistance (mmulPoint m q) ≠ 0 := by
  have haff : IsAffine (S := 3) (scalingMatrix ![(2 : ℝ), 1, 1]) := by
    intro c
    refine Fin.lastCases ?_ (fun c => ?_) c
    · rw [scaling_last, if_pos rfl]
    · rw [scaling_cast_last, if_neg (Fin.castSucc_lt_last c).ne]
  have hstrip : ∀ v : Vec ℝ 3, mmulPoint (stripTranslation (scalingMatrix ![(2 : ℝ), 1, 1])) v = ![2 * v 0, v 1, v 2] := by
    intro v
    rw [strip_sub haff, scaling_point, scaling_point]
    apply ext3 <;> simp
  have hn : dot (![3/5, 4/5, 0] : Vec ℝ 3) ![3/5, 4/5, 0] = 1 := by
    rw [dot3]; simp only [Matrix.cons_val_zero, Matrix.cons_val_one, Matrix.cons_val]; norm_num
  have hL : mmulPoint (stripTranslation (scalingMatrix ![(2 : ℝ), 1, 1])) ![3/5, 4/5, 0] ≠ 0 := by
    rw [hstrip]; intro h; have := congrFun h 1; simp at this
  obtain ⟨p', h1, -, h3⟩ := transform_distance haff ⟨0, ![3/5, 4/5, 0]⟩ hL
  refine ⟨scalingMatrix ![(2 : ℝ), 1, 1], ⟨0, ![3/5, 4/5, 0]⟩, p', ![4, -3, 0], haff, ?_, hn, h1, ?_, ?_⟩
  · intro h0
    have hinv := (C42_scaling (![2, 1, 1] : Vec ℝ 3) ![2, 1, 1] 0).2.2 (by
      intro i; fin_cases i <;> simp)
    have := congrArg (fun m => (toMatrix m).det) hinv
    simp only [toMatrix_mmul, Matrix.det_mul, h0, zero_mul] at this
    rw [toMatrix_id, Matrix.det_one] at this
    exact zero_ne_one this
  · simp only [Plane.pointDistance, dot3, Matrix.cons_val_zero, Matrix.cons_val_one, Matrix.cons_val]; norm_num
  · rw [h3]
    refine mul_ne_zero (inv_ne_zero (length_pos hL).ne') ?_
    rw [hstrip, hstrip, dot3]
    simp only [Plane.anchor, vscale, Pi.sub_apply, Matrix.cons_val_zero, Matrix.cons_val_one, Matrix.cons_val]
    norm_num

/-- Translations are similarities, so the hypotheses of `C56_similarity_partial` are met. -/
example (d : Vec ℝ S) : IsSimilarity (translationMatrix d) 1 := by
  have haff : IsAffine (translationMatrix d) := by
    intro c
    refine Fin.lastCases ?_ (fun c => ?_) c
    · rw [translation_corner, if_pos rfl]
    · rw [translation_cast]
  refine ⟨haff, fun u v => ?_⟩
  rw [strip_sub haff, strip_sub haff, translation_point, translation_point, translation_point]
  simp

/-- Uniform scalings are similarities with `c = f²`. -/
example (f : ℝ) : IsSimilarity (S := S) (scalingMatrix fun _ => f) (f ^ 2) := by
  have haff : IsAffine (S := S) (scalingMatrix fun _ => f) := by
    intro c
    refine Fin.lastCases ?_ (fun c => ?_) c
    · rw [scaling_last, if_pos rfl]
    · rw [scaling_cast_last, if_neg (Fin.castSucc_lt_last c).ne]
  refine ⟨haff, fun u v => ?_⟩
  rw [strip_sub haff, strip_sub haff, scaling_point, scaling_point, scaling_point]
  simp only [dot_eq_sum, Pi.sub_apply, Pi.zero_apply, mul_zero, sub_zero, Finset.mul_sum]
  exact Finset.sum_congr rfl fun i _ => by ring

end C56
end vm
