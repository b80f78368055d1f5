import Verif.Model.Distance
import Verif.Lemmas.Vec
import Verif.Lemmas.Scalar
import Mathlib.Tactic.FieldSimp
import Mathlib.Tactic.NormNum
import Mathlib.Tactic.Linarith
import Mathlib.Tactic.LinearCombination

/-!
# C71, C72: distances
-/

universe u

set_option linter.unusedSectionVars false
set_option linter.unusedSimpArgs false

namespace vm
variable {K : Type u} [Field K] [LinearOrder K] [IsStrictOrderedRing K] {S : ℕ}

theorem vmax_two (a b : K) : vmax a [b] = max a b := by
  simp only [vmax, exact_lt, decide_eq_true_eq]
  split_ifs with h
  · exact (max_eq_left h.le).symm
  · exact (max_eq_right (not_lt.1 h)).symm

theorem vmin_two (a b : K) : vmin a [b] = min a b := by
  simp only [vmin, exact_lt, decide_eq_true_eq]
  split_ifs with h
  · exact (min_eq_left h.le).symm
  · exact (min_eq_right (not_lt.1 h)).symm

/-! ### C71 -/

/-- The squared distance of the point at `t` on a line with unit direction. -/
theorem dist_on_line (o v p : Vec K S) (hv : dot v v = 1) (t : K) :
    dot (o + t • v - p) (o + t • v - p) = dot (o - p) (o - p) + t * t - 2 * t * dot (p - o) v := by
  rw [show o + t • v - p = (o - p) + t • v by abel, show p - o = -(o - p) by abel]
  simp only [dot_add_left, dot_add_right, dot_smul_left, dot_smul_right, dot_neg_left, hv, dot_comm v]
  ring

/-- For a ray with unit direction the reported position is on the ray, the reported value is the squared
distance of the point there, and no point of the ray is closer. -/
theorem C71_ray_point (r : Ray K S) (hr : dot r.direction r.direction = 1) (p : Vec K S) :
    ∃ d, (squaredDistanceRayPoint r p).distance = some d ∧
      0 ≤ (squaredDistanceRayPoint r p).position ∧
      d = squaredDistance (r.origin + (squaredDistanceRayPoint r p).position • r.direction) p ∧
      ∀ t : K, 0 ≤ t → d ≤ squaredDistance (r.origin + t • r.direction) p := by
  have hval : squaredDistanceRayPoint r p =
      ⟨max (dot (p - r.origin) r.direction) 0,
       some (squaredDistance (r.origin + max (dot (p - r.origin) r.direction) 0 • r.direction) p)⟩ := by
    unfold squaredDistanceRayPoint
    simp only [vmax_two, exact_eq, decide_eq_true_eq, pointAtDistance, vscale_eq_smul]
    split_ifs with h
    · rw [h, zero_smul, add_zero]
      congr 2
      unfold squaredDistance squaredLength
      rw [show p - r.origin = -(r.origin - p) by abel, dot_neg_left, dot_neg_right, neg_neg]
    · rfl
  rw [hval]
  refine ⟨_, rfl, le_max_right _ _, rfl, ?_⟩
  intro t ht
  unfold squaredDistance squaredLength
  rw [dist_on_line _ _ _ hr, dist_on_line _ _ _ hr]
  rcases le_total (dot (p - r.origin) r.direction) 0 with h | h
  · rw [max_eq_right h]
    nlinarith [mul_nonneg ht (neg_nonneg.2 h)]
  · rw [max_eq_left h]
    nlinarith [mul_self_nonneg (t - dot (p - r.origin) r.direction)]

/-- `distance` is the minimal distance. -/
theorem C71_ray_point_sqrt (r : Ray ℝ S) (hr : dot r.direction r.direction = 1) (p : Vec ℝ S) :
    ∃ d, (distanceRayPoint r p).distance = some d ∧
      0 ≤ (distanceRayPoint r p).position ∧
      d = distance (r.origin + (distanceRayPoint r p).position • r.direction) p ∧
      ∀ t : ℝ, 0 ≤ t → d ≤ distance (r.origin + t • r.direction) p := by
  obtain ⟨d, h1, h2, h3, h4⟩ := C71_ray_point r hr p
  refine ⟨Real.sqrt d, ?_, h2, ?_, ?_⟩
  · unfold distanceRayPoint; simp only [h1, Option.map_some]
  · rw [h3]; rfl
  · intro t ht
    exact Real.sqrt_le_sqrt (h4 t ht)

/-- For a segment whose end points differ the reported position is on the segment (measured from its start), the
reported value is the squared distance of the point there, and no point of the segment is closer. -/
theorem C71_segment_point (s : Segment ℝ S) (hs : s.start ≠ s.end_) (p : Vec ℝ S) :
    ∃ d, (squaredDistanceSegmentPoint s p).distance = some d ∧
      0 ≤ (squaredDistanceSegmentPoint s p).position ∧
      (squaredDistanceSegmentPoint s p).position ≤ s.length ∧
      d = squaredDistance (s.start + ((squaredDistanceSegmentPoint s p).position / s.length) • (s.end_ - s.start)) p ∧
      ∀ x : ℝ, 0 ≤ x → x ≤ 1 → d ≤ squaredDistance (s.start + x • (s.end_ - s.start)) p := by
  have hne : s.end_ - s.start ≠ 0 := fun h => hs (sub_eq_zero.1 h).symm
  have hlen : 0 < length (s.end_ - s.start) := length_pos hne
  set L := length (s.end_ - s.start) with hL
  set v : Vec ℝ S := L⁻¹ • (s.end_ - s.start) with hv
  have hvv : dot v v = 1 := by
    rw [hv, dot_smul_left, dot_smul_right, ← length_sq, ← hL]
    field_simp
  have huv : s.end_ - s.start = L • v := by
    rw [hv, smul_smul, mul_inv_cancel₀ hlen.ne', one_smul]
  have hdir : s.direction = some v := normalize_of_ne hne
  clear_value v
  have hval : squaredDistanceSegmentPoint s p =
      ⟨min (max 0 (dot (p - s.start) v)) L,
       some (squaredLength (p - (s.start + min (max 0 (dot (p - s.start) v)) L • v)))⟩ := by
    unfold squaredDistanceSegmentPoint
    simp only [← hL, if_neg hlen.ne', vmax_two, vmin_two, vdivs_eq_smul, ← hv, hdir, Option.map_some, pointAtDistance,
      vscale_eq_smul]
  have hpos0 : 0 ≤ min (max 0 (dot (p - s.start) v)) L := le_min (le_max_left _ _) hlen.le
  rw [hval]
  have hlen' : s.length = L := rfl
  have hsq : ∀ t : ℝ, squaredLength (p - (s.start + t • v)) = dot (s.start + t • v - p) (s.start + t • v - p) := by
    intro t
    unfold squaredLength
    rw [show p - (s.start + t • v) = -(s.start + t • v - p) by abel, dot_neg_left, dot_neg_right, neg_neg]
  refine ⟨_, rfl, hpos0, min_le_right _ _, ?_, ?_⟩
  · rw [hlen', huv, smul_smul, div_mul_cancel₀ _ hlen.ne', hsq]; rfl
  · intro x hx0 hx1
    rw [huv, smul_smul, hsq]
    unfold squaredDistance squaredLength
    rw [dist_on_line _ _ _ hvv, dist_on_line _ _ _ hvv]
    have ht0 : 0 ≤ x * L := mul_nonneg hx0 hlen.le
    have ht1 : x * L ≤ L := by nlinarith
    set t := x * L
    set q := dot (p - s.start) v
    rcases le_total q 0 with h | h
    · rw [max_eq_left h, min_eq_left hlen.le]
      nlinarith [mul_nonneg ht0 (neg_nonneg.2 h)]
    · rw [max_eq_right h]
      rcases le_total q L with h' | h'
      · rw [min_eq_left h']; nlinarith [mul_self_nonneg (t - q)]
      · rw [min_eq_right h']; nlinarith [mul_nonneg (sub_nonneg.2 ht1) (by linarith : 0 ≤ 2 * q - L - t)]

/-- `distance` is the minimal distance. -/
theorem C71_segment_point_sqrt (s : Segment ℝ S) (hs : s.start ≠ s.end_) (p : Vec ℝ S) :
    ∃ d, (distanceSegmentPoint s p).distance = some d ∧
      d = distance (s.start + ((distanceSegmentPoint s p).position / s.length) • (s.end_ - s.start)) p ∧
      ∀ x : ℝ, 0 ≤ x → x ≤ 1 → d ≤ distance (s.start + x • (s.end_ - s.start)) p := by
  obtain ⟨d, h1, -, -, h3, h4⟩ := C71_segment_point s hs p
  refine ⟨Real.sqrt d, ?_, ?_, ?_⟩
  · unfold distanceSegmentPoint; simp only [h1, Option.map_some]
  · rw [h3]; rfl
  · intro t h0 h1
    exact Real.sqrt_le_sqrt (h4 t h0 h1)

/-- For a segment whose end points coincide the result is NaN. -/
theorem C71_segment_degenerate (a p : Vec ℝ S) : (squaredDistanceSegmentPoint ⟨a, a⟩ p).distance = none := by
  unfold squaredDistanceSegmentPoint
  have : length (a - a) = 0 := by rw [sub_self]; exact length_eq_zero.2 rfl
  simp only [this, if_true]

/-! ### C72: two lines -/

/-- The squared distance of a point on each of two lines. -/
theorem dist_two (w u v : Vec K S) (s t : K) :
    dot (w + s • u - t • v) (w + s • u - t • v) =
      dot w w + 2 * s * dot u w - 2 * t * dot v w + s * s * dot u u - 2 * s * t * dot u v + t * t * dot v v := by
  simp only [dot_add_left, dot_add_right, dot_sub_left, dot_sub_right, dot_smul_left, dot_smul_right, dot_comm w,
    dot_comm v u]
  ring

/-- Completing the squares. -/
theorem two_squares (W a b c d e s t s' t' : K) (hc : 0 < c) (hD : 0 < a * c - b * b) :
    (W + 2 * s * d - 2 * t * e + s * s * a - 2 * s * t * b + t * t * c) -
      (W + 2 * s' * d - 2 * t' * e + s' * s' * a - 2 * s' * t' * b + t' * t' * c) =
    c * ((t - (e + s * b) / c) ^ 2 - (t' - (e + s' * b) / c) ^ 2) +
      (a * c - b * b) / c * ((s - (b * e - c * d) / (a * c - b * b)) ^ 2 -
        (s' - (b * e - c * d) / (a * c - b * b)) ^ 2) := by
  have h1 := hc.ne'
  obtain ⟨q, hq⟩ : ∃ q, q = (b * e - c * d) / (a * c - b * b) := ⟨_, rfl⟩
  rw [← hq]
  rw [eq_div_iff hD.ne'] at hq
  field_simp
  linear_combination (2 * (s - s')) * hq

/-- The squared distance of the point `s` of one line and the point `t` of another is least if `t` is the projection
of the point `s`, and `s` is closest to its optimal value. -/
theorem two_lines_min (w u v : Vec K S) (s' t' : K) (hD : 0 < dot u u * dot v v - dot u v * dot u v)
    (ht' : t' * dot v v = dot v w + s' * dot u v)
    (s t : K) (hs : (s' - (dot u v * dot v w - dot v v * dot u w) / (dot u u * dot v v - dot u v * dot u v)) ^ 2 ≤
      (s - (dot u v * dot v w - dot v v * dot u w) / (dot u u * dot v v - dot u v * dot u v)) ^ 2) :
    dot (w + s' • u - t' • v) (w + s' • u - t' • v) ≤ dot (w + s • u - t • v) (w + s • u - t • v) := by
  have hc : 0 < dot v v := by
    rcases (dot_self_nonneg v).lt_or_eq with h | h
    · exact h
    · rw [← h, mul_zero, zero_sub] at hD
      have := mul_self_nonneg (dot u v); linarith
  have e := two_squares (dot w w) (dot u u) (dot u v) (dot v v) (dot u w) (dot v w) s t s' t' hc hD
  rw [← dist_two, ← dist_two] at e
  have ht0 : t' - (dot v w + s' * dot u v) / dot v v = 0 := by
    rw [← ht', mul_div_cancel_right₀ _ hc.ne', sub_self]
  rw [ht0] at e
  have h1 := mul_nonneg hc.le (sq_nonneg (t - (dot v w + s * dot u v) / dot v v))
  have h2 := mul_nonneg (div_pos hD hc).le (sub_nonneg.2 hs)
  nlinarith

/-- The minimum over a whole line and an interval is unique in the parameter of the line. -/
theorem two_lines_unique (w u v : Vec K S) (s' t' s t : K) (hD : 0 < dot u u * dot v v - dot u v * dot u v)
    (ht' : t' * dot v v = dot v w + s' * dot u v)
    (hs : (s' - (dot u v * dot v w - dot v v * dot u w) / (dot u u * dot v v - dot u v * dot u v)) ^ 2 ≤
      (s - (dot u v * dot v w - dot v v * dot u w) / (dot u u * dot v v - dot u v * dot u v)) ^ 2)
    (hs' : (s' - (dot u v * dot v w - dot v v * dot u w) / (dot u u * dot v v - dot u v * dot u v)) ^ 2 =
      (s - (dot u v * dot v w - dot v v * dot u w) / (dot u u * dot v v - dot u v * dot u v)) ^ 2 → s' = s)
    (hle : dot (w + s • u - t • v) (w + s • u - t • v) ≤ dot (w + s' • u - t' • v) (w + s' • u - t' • v)) :
    t = t' := by
  have hc : 0 < dot v v := by
    rcases (dot_self_nonneg v).lt_or_eq with h | h
    · exact h
    · rw [← h, mul_zero, zero_sub] at hD
      have := mul_self_nonneg (dot u v); linarith
  have e := two_squares (dot w w) (dot u u) (dot u v) (dot v v) (dot u w) (dot v w) s t s' t' hc hD
  rw [← dist_two, ← dist_two] at e
  have ht0 : t' - (dot v w + s' * dot u v) / dot v v = 0 := by
    rw [← ht', mul_div_cancel_right₀ _ hc.ne', sub_self]
  rw [ht0] at e
  have h1 := mul_nonneg hc.le (sq_nonneg (t - (dot v w + s * dot u v) / dot v v))
  have h2 := mul_nonneg (div_pos hD hc).le (sub_nonneg.2 hs)
  have z1 : dot v v * (t - (dot v w + s * dot u v) / dot v v) ^ 2 = 0 := by nlinarith
  have z2 : (dot u u * dot v v - dot u v * dot u v) / dot v v *
      ((s - (dot u v * dot v w - dot v v * dot u w) / (dot u u * dot v v - dot u v * dot u v)) ^ 2 -
        (s' - (dot u v * dot v w - dot v v * dot u w) / (dot u u * dot v v - dot u v * dot u v)) ^ 2) = 0 := by nlinarith
  have hss : s' = s := by
    rcases mul_eq_zero.1 z2 with h | h
    · exact absurd h (div_pos hD hc).ne'
    · exact hs' (sub_eq_zero.1 h).symm
  rw [mul_eq_zero, or_iff_right hc.ne', sq_eq_zero_iff] at z1
  rw [hss] at ht0
  linarith

theorem opt_t {a b c d e D : K} (h : a * c - b * b = D) (hD : D ≠ 0) :
    (a * e - b * d) / D * c = e + (b * e - c * d) / D * b := by
  field_simp
  linear_combination e * h

/-- The parameter `s'` is admissible and the closest admissible value to the optimum for whole lines. -/
def ClosestAdmissible (w u v : Vec K S) (P : K → Prop) (s' : K) : Prop :=
  P s' ∧ ∀ s, P s →
    (s' - (dot u v * dot v w - dot v v * dot u w) / (dot u u * dot v v - dot u v * dot u v)) ^ 2 ≤
      (s - (dot u v * dot v w - dot v v * dot u w) / (dot u u * dot v v - dot u v * dot u v)) ^ 2 ∧
    ((s' - (dot u v * dot v w - dot v v * dot u w) / (dot u u * dot v v - dot u v * dot u v)) ^ 2 =
      (s - (dot u v * dot v w - dot v v * dot u w) / (dot u u * dot v v - dot u v * dot u v)) ^ 2 → s' = s)

/-- If clamping `t'` is not necessary then the pair is optimal. -/
theorem clamp_ok (w u v : Vec K S) (P : K → Prop) (s' t' : K)
    (hD : 0 < dot u u * dot v v - dot u v * dot u v) (ht' : t' * dot v v = dot v w + s' * dot u v)
    (hcl : ClosestAdmissible w u v P s')
    (hpos : 0 < max t' 0 ∨ ∃ t0 : K, 0 ≤ t0 ∧ ∃ x0 : K, P x0 ∧ ∀ t : K, ∀ x : K, P x →
      dot (w + x0 • u - t0 • v) (w + x0 • u - t0 • v) ≤ dot (w + x • u - t • v) (w + x • u - t • v))
    (s t : K) (hs : P s) :
    dot (w + s' • u - max t' 0 • v) (w + s' • u - max t' 0 • v) ≤ dot (w + s • u - t • v) (w + s • u - t • v) := by
  have h0 : 0 ≤ t' := by
    rcases hpos with h | ⟨t0, ht0, x0, hx0, hmin⟩
    · by_contra hc
      rw [max_eq_right (not_le.1 hc).le] at h
      exact lt_irrefl _ h
    · have := two_lines_unique w u v s' t' x0 t0 hD ht' (hcl.2 x0 hx0).1 (hcl.2 x0 hx0).2 (hmin t' s' hcl.1)
      rw [← this]; exact ht0
  rw [max_eq_left h0]
  exact two_lines_min w u v s' t' hD ht' s t (hcl.2 s hs).1

theorem if_zero_div (y z : K) : (if y = 0 then 0 else y / z) = y / z := by
  split_ifs with h
  · rw [h, zero_div]
  · rfl

theorem pos_of_gram {u v : Vec K S} (hD : 0 < dot u u * dot v v - dot u v * dot u v) : 0 < dot v v := by
  rcases (dot_self_nonneg v).lt_or_eq with h | h
  · exact h
  · rw [← h, mul_zero, zero_sub] at hD
    have := mul_self_nonneg (dot u v); linarith

/-- The squared distance of the points at the given positions of two rays (or lines). -/
theorem sq_dist_eq (o1 v o2 u : Vec K S) (t x : K) :
    squaredDistance (o1 + t • v) (o2 + x • u) = dot (o2 - o1 + x • u - t • v) (o2 - o1 + x • u - t • v) := by
  unfold squaredDistance squaredLength
  rw [show o1 + t • v - (o2 + x • u) = -(o2 - o1 + x • u - t • v) by abel, dot_neg_left, dot_neg_right, neg_neg]

/-- The measure for parallelism used by the code: the squared sine of the angle for unit vectors. -/
def gram (u v : Vec K S) : K := dot u u * dot v v - dot u v * dot u v

theorem isZero_false {x az : K} (haz : 0 ≤ az) (h : az < x) : isZero x az = false := by
  rw [isZero_exact_nonneg _ haz, decide_eq_false_iff_not, not_le]
  exact lt_of_lt_of_le h (le_abs_self x)

/-! #### Two rays -/

/-- Two rays that are not parallel (up to the tolerance): the reported positions are on the rays and the reported
value is the squared distance of the points there.  So it is never less than the minimum. -/
theorem C72_ray_ray_attained (az : K) (haz : 0 ≤ az) (r1 r2 : Ray K S) (hD : az < gram r2.direction r1.direction) :
    (squaredDistanceRayRay az r1 r2).parallel = false ∧
    0 ≤ (squaredDistanceRayRay az r1 r2).position1 ∧
    ∃ x, (squaredDistanceRayRay az r1 r2).position2 = some x ∧ 0 ≤ x ∧
      (squaredDistanceRayRay az r1 r2).distance =
        squaredDistance (r1.origin + (squaredDistanceRayRay az r1 r2).position1 • r1.direction)
          (r2.origin + x • r2.direction) := by
  have hD0 : 0 < gram r2.direction r1.direction := lt_of_le_of_lt haz hD
  unfold squaredDistanceRayRay
  have hz := isZero_false haz hD
  unfold gram at hz hD0
  simp only [hz, Bool.false_eq_true, if_false, vscale_eq_smul, vmax_two]
  refine ⟨trivial, le_max_right _ _, _, rfl, ?_, ?_⟩
  · split_ifs with h1 h2 h2
    · exact le_refl _
    · simp
    · exact le_refl _
    · simp only [exact_lt, decide_eq_true_eq, not_lt] at h1
      exact div_nonneg h1 hD0.le
  · rw [sq_dist_eq]; rfl

/-- Two rays that are not parallel, when the tolerance has no influence: the result is the minimum, provided that
the reported position on the first ray is not its origin, or, more generally, that the line of the first ray has no point closer
to the second ray than those of the first ray itself.  Missing: the remaining case, in which the result may be wrong, see
`C72_ray_ray_fails`. -/
theorem C72_ray_ray_partial (az : K) (haz : 0 ≤ az) (r1 r2 : Ray K S) (hD : az < gram r2.direction r1.direction)
    (htol : squaredDistanceRayRay az r1 r2 = squaredDistanceRayRay 0 r1 r2)
    (hpos : 0 < (squaredDistanceRayRay az r1 r2).position1 ∨
      ∃ t0 : K, 0 ≤ t0 ∧ ∃ x0 : K, 0 ≤ x0 ∧ ∀ t : K, ∀ x : K, 0 ≤ x →
        squaredDistance (r1.origin + t0 • r1.direction) (r2.origin + x0 • r2.direction) ≤
          squaredDistance (r1.origin + t • r1.direction) (r2.origin + x • r2.direction)) :
    ∀ t : K, 0 ≤ t → ∀ x : K, 0 ≤ x → (squaredDistanceRayRay az r1 r2).distance ≤
      squaredDistance (r1.origin + t • r1.direction) (r2.origin + x • r2.direction) := by
  rw [htol] at hpos ⊢
  have hD0 : 0 < gram r2.direction r1.direction := lt_of_le_of_lt haz hD
  have hz := isZero_false (le_refl (0 : K)) hD0
  intro t ht x hx
  rw [sq_dist_eq]
  simp only [sq_dist_eq] at hpos
  unfold squaredDistanceRayRay at hpos ⊢
  unfold gram at hz hD0
  simp only [hz, Bool.false_eq_true, if_false, vscale_eq_smul, vmax_two, squaredLength,
    isZero_exact_nonneg _ (le_refl (0 : K)), exact_lt, decide_eq_true_eq, abs_nonpos_iff] at hpos ⊢
  generalize r2.origin - r1.origin = w at hpos ⊢
  generalize r2.direction = u at hpos hz hD0 ⊢
  generalize r1.direction = v at hpos hz hD0 ⊢
  have hc := pos_of_gram hD0
  simp only [if_zero_div] at hpos ⊢
  by_cases hneg : dot u v * dot v w - dot v v * dot u w < 0
  · have hq := div_neg_of_neg_of_pos hneg hD0
    simp only [if_pos hneg, zero_div] at hpos ⊢
    refine clamp_ok w u v (0 ≤ ·) 0 _ hD0 ?_ ⟨le_refl _, ?_⟩ hpos x t hx
    · rw [div_mul_cancel₀ _ hc.ne']; ring
    · intro s hs
      constructor
      · nlinarith
      · intro h; nlinarith
  · have hq := div_nonneg (not_lt.1 hneg) hD0.le
    simp only [if_neg hneg] at hpos ⊢
    refine clamp_ok w u v (0 ≤ ·) _ _ hD0 (opt_t rfl hD0.ne') ⟨hq, ?_⟩ hpos x t hx
    intro s hs
    rw [sub_self, zero_pow two_ne_zero]
    refine ⟨sq_nonneg _, fun h => ?_⟩
    have := (pow_eq_zero_iff two_ne_zero).1 h.symm
    linarith

/-- Two rays with unit direction vectors, pointing in the same direction: the result is the minimum and it is
attained at the reported positions. -/
theorem C72_ray_ray_parallel (az : K) (haz : 0 ≤ az) (r1 r2 : Ray K S) (h1 : dot r1.direction r1.direction = 1)
    (h2 : r2.direction = r1.direction) :
    (squaredDistanceRayRay az r1 r2).parallel = true ∧
    0 ≤ (squaredDistanceRayRay az r1 r2).position1 ∧
    (∃ x, (squaredDistanceRayRay az r1 r2).position2 = some x ∧ 0 ≤ x ∧
      (squaredDistanceRayRay az r1 r2).distance =
        squaredDistance (r1.origin + (squaredDistanceRayRay az r1 r2).position1 • r1.direction)
          (r2.origin + x • r2.direction)) ∧
    ∀ t : K, 0 ≤ t → ∀ x : K, 0 ≤ x → (squaredDistanceRayRay az r1 r2).distance ≤
      squaredDistance (r1.origin + t • r1.direction) (r2.origin + x • r2.direction) := by
  have hz : isZero (dot r1.direction r1.direction * dot r1.direction r1.direction -
      dot r1.direction r1.direction * dot r1.direction r1.direction) az = true := by
    rw [sub_self, isZero_exact_nonneg _ haz, abs_zero]; exact decide_eq_true haz
  simp only [sq_dist_eq]
  unfold squaredDistanceRayRay
  simp only [h2, hz, if_true, vmax_two, distanceToProjectedPoint, projectPoint, pointAtDistance, vscale_eq_smul,
    squaredDistance, squaredLength]
  generalize r1.direction = v at h1 ⊢
  have e1 : r1.origin - r2.origin = -(r2.origin - r1.origin) := by abel
  have e2 : r1.origin + dot (r2.origin - r1.origin) v • v - r2.origin =
      -(r2.origin - r1.origin + (0 : K) • v - dot (r2.origin - r1.origin) v • v) := by
    rw [zero_smul]; abel
  rw [e1, e2]
  generalize r2.origin - r1.origin = w
  rw [dot_neg_left, dot_neg_right, dot_neg_left, neg_neg]
  simp only [dist_two, h1, dot_comm v w]
  refine ⟨trivial, le_max_left _ _, ⟨_, rfl, le_max_left _ _, ?_⟩, ?_⟩
  · rcases le_total 0 (dot w v) with h | h
    · rw [max_eq_right h, max_eq_left (by linarith : -dot w v ≤ 0)]
    · rw [max_eq_left h, max_eq_right (by linarith : 0 ≤ -dot w v)]; ring
  · intro t _ x _
    nlinarith [mul_self_nonneg (dot w v + x - t)]

/-- Two rays that are not parallel.  The point of the line of the first ray closest to the second ray is behind the
origin of the first; then the point of the second ray is not corrected: the points at the origins are reported, but
the point at distance 0.6 on the second ray is closer. -/
theorem C72_ray_ray_fails :
    let r1 : Ray ℚ 3 := ⟨![0, 0, 0], ![1, 0, 0]⟩
    let r2 : Ray ℚ 3 := ⟨![-1, 0, 0], ![3 / 5, 4 / 5, 0]⟩
    (squaredDistanceRayRay (1 / 1000) r1 r2).parallel = false ∧
    (squaredDistanceRayRay (1 / 1000) r1 r2).distance = 1 ∧
    squaredDistance r1.origin (r2.origin + (3 / 5 : ℚ) • r2.direction) = 16 / 25 := by
  decide +kernel

/-- Two rays that point away from each other on the same line: the reported distance is zero, but the rays are at
distance one, and the reported positions are the origins. -/
theorem C72_ray_ray_opposite_fails :
    let r1 : Ray ℚ 3 := ⟨![0, 0, 0], ![1, 0, 0]⟩
    let r2 : Ray ℚ 3 := ⟨![-1, 0, 0], ![-1, 0, 0]⟩
    (squaredDistanceRayRay (1 / 1000) r1 r2).distance = 0 ∧
    (squaredDistanceRayRay (1 / 1000) r1 r2).position1 = 0 ∧
    (squaredDistanceRayRay (1 / 1000) r1 r2).position2 = some 0 ∧
    ∀ t : ℚ, 0 ≤ t → ∀ x : ℚ, 0 ≤ x →
      1 ≤ squaredDistance (r1.origin + t • r1.direction) (r2.origin + x • r2.direction) := by
  intro r1 r2
  refine ⟨by decide +kernel, by decide +kernel, by decide +kernel, ?_⟩
  intro t ht x hx
  have e : squaredDistance (r1.origin + t • r1.direction) (r2.origin + x • r2.direction) = (1 + t + x) * (1 + t + x) := by
    rw [squaredDistance, squaredLength, dot3]
    simp only [r1, r2, Pi.sub_apply, Pi.add_apply, Pi.smul_apply, smul_eq_mul, Matrix.cons_val_zero,
      Matrix.cons_val_one, Matrix.cons_val]
    ring
  rw [e]; nlinarith

/-! #### A ray and a line -/

/-- A ray and a line that are not parallel (up to the tolerance): the reported value is the squared distance of the
points at the reported positions. -/
theorem C72_ray_line_attained (az : K) (haz : 0 ≤ az) (r : Ray K S) (l : Line K S)
    (hD : az < gram r.direction l.direction) :
    (squaredDistanceRayLine az r l).parallel = false ∧
    0 ≤ (squaredDistanceRayLine az r l).position1 ∧
    ∃ x, (squaredDistanceRayLine az r l).position2 = some x ∧
      (squaredDistanceRayLine az r l).distance =
        squaredDistance (r.origin + (squaredDistanceRayLine az r l).position1 • r.direction)
          (l.point + x • l.direction) := by
  unfold squaredDistanceRayLine
  have hz := isZero_false haz hD
  unfold gram at hz
  simp only [hz, Bool.false_eq_true, if_false, vscale_eq_smul, vmax_two]
  exact ⟨trivial, le_max_right _ _, _, rfl, rfl⟩

/-- A ray and a line that are not parallel: the result is the minimum, provided that the reported position on the ray is
not its origin, or, more generally, that some point of the ray is as close to the line as any point of the line of the
ray.  Missing: the remaining case, in which the result may be wrong, see `C72_ray_line_fails`. -/
theorem C72_ray_line_partial (az : K) (haz : 0 ≤ az) (r : Ray K S) (l : Line K S)
    (hD : az < gram r.direction l.direction)
    (hpos : 0 < (squaredDistanceRayLine az r l).position1 ∨
      ∃ t0 : K, 0 ≤ t0 ∧ ∃ x0 : K, ∀ t : K, ∀ x : K,
        squaredDistance (r.origin + t0 • r.direction) (l.point + x0 • l.direction) ≤
          squaredDistance (r.origin + t • r.direction) (l.point + x • l.direction)) :
    ∀ t : K, 0 ≤ t → ∀ x : K, (squaredDistanceRayLine az r l).distance ≤
      squaredDistance (r.origin + t • r.direction) (l.point + x • l.direction) := by
  have hD0 : 0 < gram r.direction l.direction := lt_of_le_of_lt haz hD
  have hz := isZero_false haz hD
  intro t ht x
  have hflip : ∀ t x : K, squaredDistance (r.origin + t • r.direction) (l.point + x • l.direction) =
      dot (r.origin - l.point + t • r.direction - x • l.direction)
        (r.origin - l.point + t • r.direction - x • l.direction) := by
    intro t x
    unfold squaredDistance squaredLength
    rw [show r.origin + t • r.direction - (l.point + x • l.direction) =
      r.origin - l.point + t • r.direction - x • l.direction by abel]
  simp only [hflip] at hpos ⊢
  have hdist : (squaredDistanceRayLine az r l).distance = dot (r.origin - l.point +
      (squaredDistanceRayLine az r l).position1 • r.direction -
      ((dot r.direction r.direction * dot l.direction (r.origin - l.point) -
        dot r.direction l.direction * dot r.direction (r.origin - l.point)) /
          (dot r.direction r.direction * dot l.direction l.direction -
            dot r.direction l.direction * dot r.direction l.direction)) • l.direction) (r.origin - l.point +
      (squaredDistanceRayLine az r l).position1 • r.direction -
      ((dot r.direction r.direction * dot l.direction (r.origin - l.point) -
        dot r.direction l.direction * dot r.direction (r.origin - l.point)) /
          (dot r.direction r.direction * dot l.direction l.direction -
            dot r.direction l.direction * dot r.direction l.direction)) • l.direction) := by
    rw [← hflip]
    unfold squaredDistanceRayLine
    unfold gram at hz
    simp only [hz, Bool.false_eq_true, if_false, vscale_eq_smul]
    rfl
  have hp1 : (squaredDistanceRayLine az r l).position1 = max ((dot r.direction l.direction *
      dot l.direction (r.origin - l.point) - dot l.direction l.direction * dot r.direction (r.origin - l.point)) /
          (dot r.direction r.direction * dot l.direction l.direction -
            dot r.direction l.direction * dot r.direction l.direction)) 0 := by
    unfold squaredDistanceRayLine
    unfold gram at hz
    simp only [hz, Bool.false_eq_true, if_false, vscale_eq_smul, vmax_two]
  rw [hdist, hp1]
  rw [hp1] at hpos
  generalize r.origin - l.point = w at hpos ⊢
  unfold gram at hD0
  generalize r.direction = u at hpos hD0 ⊢
  generalize l.direction = v at hpos hD0 ⊢
  have hopt := opt_t (a := dot u u) (b := dot u v) (c := dot v v) (d := dot u w) (e := dot v w) rfl hD0.ne'
  -- no clamping
  have h0 : 0 ≤ (dot u v * dot v w - dot v v * dot u w) / (dot u u * dot v v - dot u v * dot u v) := by
    rcases hpos with h | ⟨t0, ht0, x0, hmin⟩
    · by_contra hc
      rw [max_eq_right (not_le.1 hc).le] at h
      exact lt_irrefl _ h
    · by_contra hc
      have hne : (dot u v * dot v w - dot v v * dot u w) / (dot u u * dot v v - dot u v * dot u v) ≠ t0 := by
        intro h; rw [h] at hc; exact hc ht0
      have e := two_squares (dot w w) (dot u u) (dot u v) (dot v v) (dot u w) (dot v w) t0 x0
        ((dot u v * dot v w - dot v v * dot u w) / (dot u u * dot v v - dot u v * dot u v))
        ((dot u u * dot v w - dot u v * dot u w) / (dot u u * dot v v - dot u v * dot u v)) (pos_of_gram hD0) hD0
      rw [← dist_two, ← dist_two] at e
      have hm := hmin ((dot u v * dot v w - dot v v * dot u w) / (dot u u * dot v v - dot u v * dot u v))
        ((dot u u * dot v w - dot u v * dot u w) / (dot u u * dot v v - dot u v * dot u v))
      have hcpos := pos_of_gram hD0
      have ht0' : (dot u u * dot v w - dot u v * dot u w) / (dot u u * dot v v - dot u v * dot u v) -
          (dot v w + (dot u v * dot v w - dot v v * dot u w) / (dot u u * dot v v - dot u v * dot u v) * dot u v) /
            dot v v = 0 := by
        rw [← hopt, mul_div_cancel_right₀ _ hcpos.ne', sub_self]
      rw [ht0', sub_self] at e
      have p1 := mul_nonneg hcpos.le (sq_nonneg (x0 - (dot v w + t0 * dot u v) / dot v v))
      have p2 : 0 < (dot u u * dot v v - dot u v * dot u v) / dot v v *
          (t0 - (dot u v * dot v w - dot v v * dot u w) / (dot u u * dot v v - dot u v * dot u v)) ^ 2 :=
        mul_pos (div_pos hD0 hcpos) (by have := sub_ne_zero.2 hne.symm; positivity)
      nlinarith
  rw [max_eq_left h0]
  refine two_lines_min w u v _ _ hD0 hopt t x ?_
  rw [sub_self, zero_pow two_ne_zero]
  exact sq_nonneg _

/-- A ray and a line with unit directions which are parallel: the result is the minimum and it is attained at the
reported positions. -/
theorem C72_ray_line_parallel (az : K) (haz : 0 ≤ az) (r : Ray K S) (l : Line K S) (h1 : dot r.direction r.direction = 1)
    (h2 : l.direction = r.direction ∨ l.direction = -r.direction) :
    (squaredDistanceRayLine az r l).parallel = true ∧
    0 ≤ (squaredDistanceRayLine az r l).position1 ∧
    (∃ x, (squaredDistanceRayLine az r l).position2 = some x ∧
      (squaredDistanceRayLine az r l).distance =
        squaredDistance (r.origin + (squaredDistanceRayLine az r l).position1 • r.direction)
          (l.point + x • l.direction)) ∧
    ∀ t : K, 0 ≤ t → ∀ x : K, (squaredDistanceRayLine az r l).distance ≤
      squaredDistance (r.origin + t • r.direction) (l.point + x • l.direction) := by
  have hb : dot l.direction l.direction = 1 := by
    rcases h2 with h | h <;> rw [h]
    · exact h1
    · rw [dot_neg_left, dot_neg_right, neg_neg, h1]
  obtain ⟨σ, hσ, hl⟩ : ∃ σ : K, σ * σ = 1 ∧ l.direction = σ • r.direction := by
    rcases h2 with h | h
    · exact ⟨1, by ring, by rw [h, one_smul]⟩
    · exact ⟨-1, by ring, by rw [h, neg_one_smul]⟩
  have hz : isZero (dot r.direction r.direction * dot l.direction l.direction -
      dot r.direction l.direction * dot r.direction l.direction) az = true := by
    rw [h1, hb, hl, dot_smul_right, h1, mul_one, mul_one, hσ, sub_self, isZero_exact_nonneg _ haz, abs_zero]
    exact decide_eq_true haz
  simp only [sq_dist_eq]
  unfold squaredDistanceRayLine
  simp only [hz, if_true, distanceToProjectedPoint, projectPoint, pointAtDistance, vscale_eq_smul,
    squaredDistance, squaredLength]
  simp only [hl]
  generalize r.direction = v at h1 ⊢
  have e1 : r.origin - l.point = -(l.point - r.origin) := by abel
  have e2 : r.origin + dot (l.point - r.origin) v • v - l.point =
      -(l.point - r.origin + (0 : K) • v - dot (l.point - r.origin) v • v) := by
    rw [zero_smul]; abel
  rw [e1, e2]
  generalize l.point - r.origin = w
  rw [dot_neg_left, dot_neg_right, dot_neg_left, neg_neg]
  simp only [smul_smul, dist_two, h1, dot_comm v w, dot_smul_right]
  refine ⟨trivial, le_refl _, ⟨_, rfl, ?_⟩, ?_⟩
  · have : -(σ * dot w v) * σ = -dot w v := by linear_combination (-dot w v) * hσ
    rw [this]; ring
  · intro t _ x
    nlinarith [mul_self_nonneg (dot w v + x * σ - t)]

/-- A ray and a line that are not parallel.  The common point is behind the origin of the ray; the point of the line is
not corrected. -/
theorem C72_ray_line_fails :
    let r : Ray ℚ 3 := ⟨![0, 0, 0], ![1, 0, 0]⟩
    let l : Line ℚ 3 := ⟨![-1, 0, 0], ![3 / 5, 4 / 5, 0]⟩
    (squaredDistanceRayLine (1 / 1000) r l).parallel = false ∧
    (squaredDistanceRayLine (1 / 1000) r l).distance = 1 ∧
    squaredDistance r.origin (l.point + (3 / 5 : ℚ) • l.direction) = 16 / 25 := by
  decide +kernel

/-! #### A ray and a segment -/

/-- The point of the segment at the given distance from its start. -/
noncomputable def Segment.pointAt (s : Segment ℝ S) (x : ℝ) : Vec ℝ S := s.start + (x / s.length) • (s.end_ - s.start)

/-- The result for a ray and a segment that are not parallel. -/
theorem ray_segment_form (az : ℝ) (haz : 0 ≤ az) (r : Ray ℝ S) (s : Segment ℝ S)
    (hD : az < gram (s.end_ - s.start) r.direction) :
    0 < s.length ∧ ∃ sc tc : ℝ, 0 ≤ sc ∧ sc ≤ 1 ∧
      squaredDistanceRaySegment az r s = ⟨false, max tc 0,
        dot (s.start - r.origin + sc • (s.end_ - s.start) - max tc 0 • r.direction)
          (s.start - r.origin + sc • (s.end_ - s.start) - max tc 0 • r.direction), some (sc * s.length)⟩ ∧
      (az = 0 → ClosestAdmissible (s.start - r.origin) (s.end_ - s.start) r.direction (fun x => 0 ≤ x ∧ x ≤ 1) sc ∧
        tc * dot r.direction r.direction =
          dot r.direction (s.start - r.origin) + sc * dot (s.end_ - s.start) r.direction) := by
  have hD0 : 0 < gram (s.end_ - s.start) r.direction := lt_of_le_of_lt haz hD
  have hz := isZero_false haz hD
  unfold gram at hz hD0
  have hlen : 0 < s.length := by
    apply length_pos
    intro h
    rw [h, dot_zero_left, dot_zero_left, zero_mul, zero_mul, sub_zero] at hD0
    exact lt_irrefl _ hD0
  refine ⟨hlen, ?_⟩
  have hl : Real.sqrt (dot (s.end_ - s.start) (s.end_ - s.start)) = s.length := rfl
  unfold squaredDistanceRaySegment
  simp only [hz, Bool.false_eq_true, if_false, vscale_eq_smul, vmax_two, hl, squaredLength]
  generalize s.end_ - s.start = u at hz hD0 ⊢
  generalize s.start - r.origin = w at hz hD0 ⊢
  generalize r.direction = v at hz hD0 ⊢
  have hc := pos_of_gram hD0
  have hif : ∀ x y : ℝ, az = 0 → (if isZero x az = true then 0 else x / y) = x / y := by
    intro x y h
    rw [h, isZero_exact_nonneg _ (le_refl _)]
    simp only [abs_nonpos_iff, decide_eq_true_eq]
    exact if_zero_div x y
  by_cases h1 : dot u v * dot v w - dot v v * dot u w < 0
  · simp only [if_pos h1]
    have hq := div_neg_of_neg_of_pos h1 hD0
    refine ⟨_, _, ?_, ?_, rfl, fun h0 => ?_⟩
    · split_ifs <;> simp
    · split_ifs <;> simp
    · simp only [hif _ _ h0]
      simp only [zero_div]
      refine ⟨⟨by norm_num, ?_⟩, ?_⟩
      · rintro x ⟨hx0, hx1⟩
        constructor
        · nlinarith
        · intro h; nlinarith
      · rw [div_mul_cancel₀ _ hc.ne']; ring
  · by_cases h2 : dot u u * dot v v - dot u v * dot u v < dot u v * dot v w - dot v v * dot u w
    · simp only [if_neg h1, if_pos h2]
      have hq : 1 < (dot u v * dot v w - dot v v * dot u w) / (dot u u * dot v v - dot u v * dot u v) := by
        rwa [one_lt_div hD0]
      refine ⟨_, _, ?_, ?_, rfl, fun h0 => ?_⟩
      · split_ifs
        · exact le_refl _
        · exact div_nonneg hD0.le hD0.le
      · split_ifs
        · norm_num
        · rw [div_self hD0.ne']
      · simp only [hif _ _ h0]
        simp only [div_self hD0.ne']
        refine ⟨⟨by norm_num, ?_⟩, ?_⟩
        · rintro x ⟨hx0, hx1⟩
          constructor
          · nlinarith
          · intro h; nlinarith
        · rw [div_mul_cancel₀ _ hc.ne']; ring
    · simp only [if_neg h1, if_neg h2]
      have hq0 := div_nonneg (not_lt.1 h1) hD0.le
      have hq1 : (dot u v * dot v w - dot v v * dot u w) / (dot u u * dot v v - dot u v * dot u v) ≤ 1 := by
        rw [div_le_one hD0]; exact not_lt.1 h2
      refine ⟨_, _, ?_, ?_, rfl, fun h0 => ?_⟩
      · split_ifs
        · exact le_refl _
        · exact hq0
      · split_ifs
        · norm_num
        · exact hq1
      · simp only [hif _ _ h0]
        refine ⟨⟨⟨hq0, hq1⟩, ?_⟩, opt_t rfl hD0.ne'⟩
        intro x hx
        rw [sub_self, zero_pow two_ne_zero]
        refine ⟨sq_nonneg _, fun h => ?_⟩
        have := (pow_eq_zero_iff two_ne_zero).1 h.symm
        linarith

/-- A ray and a segment that are not parallel (up to the tolerance): the reported value is the squared distance of the
points at the reported positions, which are on the ray and on the segment. -/
theorem C72_ray_segment_attained (az : ℝ) (haz : 0 ≤ az) (r : Ray ℝ S) (s : Segment ℝ S)
    (hD : az < gram (s.end_ - s.start) r.direction) :
    (squaredDistanceRaySegment az r s).parallel = false ∧
    0 ≤ (squaredDistanceRaySegment az r s).position1 ∧
    ∃ x, (squaredDistanceRaySegment az r s).position2 = some x ∧ 0 ≤ x ∧ x ≤ s.length ∧
      (squaredDistanceRaySegment az r s).distance =
        squaredDistance (r.origin + (squaredDistanceRaySegment az r s).position1 • r.direction) (s.pointAt x) := by
  obtain ⟨hlen, sc, tc, h0, h1, hval, -⟩ := ray_segment_form az haz r s hD
  rw [hval]
  refine ⟨rfl, le_max_right _ _, _, rfl, mul_nonneg h0 hlen.le, ?_, ?_⟩
  · nlinarith
  · unfold Segment.pointAt
    rw [mul_div_cancel_right₀ _ hlen.ne', sq_dist_eq]

/-- A ray and a segment that are not parallel, when the tolerance has no influence: the result is the minimum, provided
that the reported position on the ray is not its origin, or, more generally, that some point of the ray is as close to
the segment as any point of the line of the ray.  Missing: the remaining case, in which the result may be
wrong, see `C72_ray_segment_fails`. -/
theorem C72_ray_segment_partial (az : ℝ) (haz : 0 ≤ az) (r : Ray ℝ S) (s : Segment ℝ S)
    (hD : az < gram (s.end_ - s.start) r.direction)
    (htol : squaredDistanceRaySegment az r s = squaredDistanceRaySegment 0 r s)
    (hpos : 0 < (squaredDistanceRaySegment az r s).position1 ∨
      ∃ t0 : ℝ, 0 ≤ t0 ∧ ∃ x0 : ℝ, (0 ≤ x0 ∧ x0 ≤ 1) ∧ ∀ t : ℝ, ∀ x : ℝ, 0 ≤ x ∧ x ≤ 1 →
        squaredDistance (r.origin + t0 • r.direction) (s.start + x0 • (s.end_ - s.start)) ≤
          squaredDistance (r.origin + t • r.direction) (s.start + x • (s.end_ - s.start))) :
    ∀ t : ℝ, 0 ≤ t → ∀ x : ℝ, 0 ≤ x ∧ x ≤ 1 → (squaredDistanceRaySegment az r s).distance ≤
      squaredDistance (r.origin + t • r.direction) (s.start + x • (s.end_ - s.start)) := by
  have hD0 : 0 < gram (s.end_ - s.start) r.direction := lt_of_le_of_lt haz hD
  obtain ⟨hlen, sc, tc, h0, h1, hval, hopt⟩ := ray_segment_form 0 (le_refl _) r s hD0
  obtain ⟨hcl, htc⟩ := hopt rfl
  rw [htol, hval] at hpos
  rw [htol, hval]
  simp only [sq_dist_eq] at hpos ⊢
  intro t ht x hx
  exact clamp_ok _ _ _ (fun x => 0 ≤ x ∧ x ≤ 1) sc tc hD0 htc hcl hpos x t hx

/-- A ray with unit direction and a segment parallel to it (the segment may be degenerate): the result is the minimum,
attained at the reported positions unless `position2` is NaN. -/
theorem C72_ray_segment_parallel (az : ℝ) (haz : 0 ≤ az) (r : Ray ℝ S) (s : Segment ℝ S)
    (h1 : dot r.direction r.direction = 1) (b : ℝ) (h2 : s.end_ - s.start = b • r.direction) :
    (squaredDistanceRaySegment az r s).parallel = true ∧
    0 ≤ (squaredDistanceRaySegment az r s).position1 ∧
    (∀ t : ℝ, 0 ≤ t → ∀ x : ℝ, 0 ≤ x → x ≤ 1 → (squaredDistanceRaySegment az r s).distance ≤
      squaredDistance (r.origin + t • r.direction) (s.start + x • (s.end_ - s.start))) ∧
    (∀ x, (squaredDistanceRaySegment az r s).position2 = some x → 0 ≤ x ∧ x ≤ s.length ∧
      (squaredDistanceRaySegment az r s).distance =
        squaredDistance (r.origin + (squaredDistanceRaySegment az r s).position1 • r.direction) (s.pointAt x)) ∧
    (s.start ≠ s.end_ → ∃ x, (squaredDistanceRaySegment az r s).position2 = some x) := by
  have hlen : s.length = |b| := by
    unfold Segment.length
    rw [h2, length_smul]
    have : length r.direction = 1 := by
      unfold length squaredLength; rw [h1, Real.sqrt_one]
    rw [this, mul_one]
  have hdir : ∀ d, s.direction = some d → b ≠ 0 ∧ d = (b / |b|) • r.direction := by
    intro d hd
    unfold Segment.direction at hd
    rw [h2] at hd
    by_cases hb : b • r.direction = 0
    · rw [hb, normalize_zero] at hd; exact absurd hd (by simp)
    · have hb0 : b ≠ 0 := by rintro rfl; exact hb (zero_smul _ _)
      rw [normalize_of_ne hb, Option.some.injEq] at hd
      refine ⟨hb0, ?_⟩
      rw [← hd, ← h2]
      have : length (s.end_ - s.start) = |b| := hlen
      rw [this, h2, smul_smul, div_eq_inv_mul]
  have hp2 : s.end_ - r.origin = (s.start - r.origin) + b • r.direction := by rw [← h2]; abel
  have hz : isZero (dot (s.end_ - s.start) (s.end_ - s.start) * dot r.direction r.direction -
      dot (s.end_ - s.start) r.direction * dot (s.end_ - s.start) r.direction) az = true := by
    rw [h2]
    simp only [dot_smul_left, dot_smul_right, h1]
    rw [show b * (b * 1) * 1 - b * 1 * (b * 1) = 0 by ring, isZero_exact_nonneg _ haz, abs_zero]
    exact decide_eq_true haz
  set e := dot (s.start - r.origin) r.direction with he
  have hp1r : distanceToProjectedPoint r.origin r.direction s.start = e := rfl
  have hp2r : distanceToProjectedPoint r.origin r.direction s.end_ = e + b := by
    unfold distanceToProjectedPoint
    rw [hp2, dot_add_left, dot_smul_left, h1, mul_one]
  -- the squared distance as a function of the parameters
  set N := dot (s.start - r.origin) (s.start - r.origin) with hN
  have hdist : ∀ t x : ℝ, squaredDistance (r.origin + t • r.direction) (s.start + x • (s.end_ - s.start)) =
      (N - e * e) + (e + x * b - t) ^ 2 := by
    intro t x
    rw [sq_dist_eq, dist_two, h2]
    simp only [dot_smul_left, dot_smul_right, h1]
    rw [dot_comm r.direction, ← he, ← hN]
    ring
  have hperp : squaredDistance (pointAtDistance r.origin r.direction e) s.start = N - e * e := by
    have := hdist e 0
    rw [zero_smul, add_zero] at this
    unfold pointAtDistance
    rw [vscale_eq_smul, this]; ring
  have ho1 : squaredDistance r.origin s.start = (N - e * e) + e ^ 2 := by
    have := hdist 0 0
    rw [zero_smul, add_zero, zero_smul, add_zero] at this
    rw [this]; ring
  have ho2 : squaredDistance r.origin s.end_ = (N - e * e) + (e + b) ^ 2 := by
    have := hdist 0 1
    rw [zero_smul, add_zero, one_smul] at this
    rw [show s.end_ = s.start + (s.end_ - s.start) by abel, this]; ring
  -- the point at a given distance
  have hpa : ∀ t x y : ℝ, x = y * |b| → b ≠ 0 → squaredDistance (r.origin + t • r.direction) (s.pointAt x) =
      (N - e * e) + (e + y * b - t) ^ 2 := by
    intro t x y hx hb
    unfold Segment.pointAt
    rw [hlen, hx, mul_div_cancel_right₀ _ (abs_ne_zero.2 hb), hdist]
  have hpa0 : ∀ t : ℝ, squaredDistance (r.origin + t • r.direction) (s.pointAt 0) = (N - e * e) + (e - t) ^ 2 := by
    intro t
    unfold Segment.pointAt
    rw [zero_div, hdist]; ring
  have hsome : s.start ≠ s.end_ → ∃ d, s.direction = some d := by
    intro hne
    exact ⟨_, normalize_of_ne fun h => hne (sub_eq_zero.1 h).symm⟩
  unfold squaredDistanceRaySegment
  simp only [hz, if_true, hp1r, hp2r, hperp, ho1, ho2, hlen]
  by_cases c1 : e < 0 ∧ e + b < 0
  · rw [if_pos c1]
    by_cases c2 : e + b < e
    · rw [if_pos c2]
      refine ⟨rfl, le_refl _, ?_, ?_, fun _ => ⟨_, rfl⟩⟩
      · intro t ht x hx0 hx1
        rw [hdist]
        have : x * b ≤ 0 := mul_nonpos_of_nonneg_of_nonpos hx0 (by linarith)
        nlinarith
      · rintro x hx
        rw [Option.some.injEq] at hx
        rw [← hx]
        refine ⟨le_refl _, abs_nonneg _, ?_⟩
        rw [hpa0]; ring
    · rw [if_neg c2]
      have hb0 : 0 ≤ b := by linarith
      refine ⟨rfl, le_refl _, ?_, ?_, fun _ => ⟨_, rfl⟩⟩
      · intro t ht x hx0 hx1
        rw [hdist]
        have : x * b ≤ b := by nlinarith
        nlinarith
      · rintro x hx
        rw [Option.some.injEq] at hx
        have hx' : x = b := by linarith
        rw [hx']
        refine ⟨hb0, le_abs_self b, ?_⟩
        rcases hb0.lt_or_eq with hb | hb
        · rw [hpa 0 b 1 (by rw [abs_of_pos hb, one_mul]) hb.ne']; ring
        · rw [← hb, hpa0]; ring
  · rw [if_neg c1]
    by_cases c2 : 0 < e ∧ 0 < e + b
    · rw [if_pos c2]
      by_cases c3 : e + b < e
      · rw [if_pos c3]
        have hb : b < 0 := by linarith
        refine ⟨rfl, c2.2.le, ?_, ?_, fun _ => ⟨_, rfl⟩⟩
        · intro t ht x hx0 hx1
          rw [hdist]
          have := sq_nonneg (e + x * b - t)
          linarith
        · rintro x hx
          rw [Option.some.injEq] at hx
          have hx' : x = |b| := by rw [abs_of_neg hb]; linarith
          rw [hx']
          refine ⟨abs_nonneg _, le_refl _, ?_⟩
          rw [hpa _ |b| 1 (by ring) hb.ne]; ring
      · rw [if_neg c3]
        refine ⟨rfl, c2.1.le, ?_, ?_, fun _ => ⟨_, rfl⟩⟩
        · intro t ht x hx0 hx1
          rw [hdist]
          have := sq_nonneg (e + x * b - t)
          linarith
        · rintro x hx
          rw [Option.some.injEq] at hx
          rw [← hx]
          refine ⟨le_refl _, abs_nonneg _, ?_⟩
          rw [hpa0]; ring
    · rw [if_neg c2]
      refine ⟨rfl, le_refl _, ?_, ?_, ?_⟩
      · intro t ht x hx0 hx1
        rw [hdist]
        have := sq_nonneg (e + x * b - t)
        linarith
      · rintro x hx
        simp only [Option.map_eq_some_iff] at hx
        obtain ⟨d, hd, rfl⟩ := hx
        obtain ⟨hb, rfl⟩ := hdir d hd
        have hval : distanceToProjectedPoint s.start ((b / |b|) • r.direction) r.origin = (-e / b) * |b| := by
          unfold distanceToProjectedPoint
          rw [dot_smul_right, show r.origin - s.start = -(s.start - r.origin) by abel, dot_neg_left, ← he]
          have := abs_ne_zero.2 hb
          field_simp
          rw [sq_abs]
        rw [hval]
        have hy : 0 ≤ -e / b ∧ -e / b ≤ 1 := by
          rcases lt_or_gt_of_ne hb with hb' | hb'
          · have h3 : 0 ≤ e := by
              by_contra h; exact c1 ⟨not_le.1 h, by linarith⟩
            have h4 : e + b ≤ 0 := by
              by_contra h; exact c2 ⟨by linarith, not_le.1 h⟩
            exact ⟨div_nonneg_of_nonpos (by linarith) hb'.le, by rw [div_le_one_of_neg hb']; linarith⟩
          · have h3 : e ≤ 0 := by
              by_contra h; exact c2 ⟨not_le.1 h, by linarith⟩
            have h4 : 0 ≤ e + b := by
              by_contra h; exact c1 ⟨by linarith, not_le.1 h⟩
            exact ⟨div_nonneg (by linarith) hb'.le, by rw [div_le_one hb']; linarith⟩
        refine ⟨mul_nonneg hy.1 (abs_nonneg _), ?_, ?_⟩
        · nlinarith [abs_nonneg b]
        · rw [hpa 0 _ _ rfl hb, div_mul_cancel₀ _ hb]; ring
      · intro hne
        obtain ⟨d, hd⟩ := hsome hne
        exact ⟨_, by rw [hd]; rfl⟩

/-- A ray and a segment that are not parallel.  The line of the ray meets the segment behind the origin of the ray; the
point of the segment is not corrected. -/
theorem C72_ray_segment_fails :
    let r : Ray ℝ 3 := ⟨![0, 0, 0], ![1, 0, 0]⟩
    let s : Segment ℝ 3 := ⟨![-1, 0, 0], ![1, 2, 0]⟩
    (squaredDistanceRaySegment almostZeroR r s).parallel = false ∧
    (squaredDistanceRaySegment almostZeroR r s).distance = 1 ∧
    squaredDistance r.origin (s.start + (1 / 4 : ℝ) • (s.end_ - s.start)) = 1 / 2 := by
  intro r s
  have haz : (0 : ℝ) ≤ almostZeroR := by unfold almostZeroR; norm_num
  have hu : s.end_ - s.start = ![2, 2, 0] := by
    apply ext3 <;> simp only [s, Pi.sub_apply, Matrix.cons_val_zero, Matrix.cons_val_one, Matrix.cons_val] <;> norm_num
  have hw : s.start - r.origin = ![-1, 0, 0] := by
    apply ext3 <;> simp only [s, r, Pi.sub_apply, Matrix.cons_val_zero, Matrix.cons_val_one, Matrix.cons_val] <;> norm_num
  have hv : r.direction = ![1, 0, 0] := rfl
  have ha : dot (![2, 2, 0] : Vec ℝ 3) ![2, 2, 0] = 8 := by
    rw [dot3]; simp only [Matrix.cons_val_zero, Matrix.cons_val_one, Matrix.cons_val]; norm_num
  have hb : dot (![2, 2, 0] : Vec ℝ 3) ![1, 0, 0] = 2 := by
    rw [dot3]; simp only [Matrix.cons_val_zero, Matrix.cons_val_one, Matrix.cons_val]; norm_num
  have hc : dot (![1, 0, 0] : Vec ℝ 3) ![1, 0, 0] = 1 := by
    rw [dot3]; simp only [Matrix.cons_val_zero, Matrix.cons_val_one, Matrix.cons_val]; norm_num
  have hd : dot (![2, 2, 0] : Vec ℝ 3) ![-1, 0, 0] = -2 := by
    rw [dot3]; simp only [Matrix.cons_val_zero, Matrix.cons_val_one, Matrix.cons_val]; norm_num
  have he : dot (![1, 0, 0] : Vec ℝ 3) ![-1, 0, 0] = -1 := by
    rw [dot3]; simp only [Matrix.cons_val_zero, Matrix.cons_val_one, Matrix.cons_val]; norm_num
  have z1 : isZero ((8 : ℝ) * 1 - 2 * 2) almostZeroR = false :=
    isZero_false haz (by unfold almostZeroR; norm_num)
  have z2 : isZero (0 : ℝ) almostZeroR = true := by
    rw [isZero_exact_nonneg _ haz, abs_zero]; exact decide_eq_true haz
  have z3 : isZero ((8 : ℝ) * -1 - 2 * -2) almostZeroR = false := by
    rw [isZero_exact_nonneg _ haz, decide_eq_false_iff_not, not_le]
    rw [show |((8 : ℝ) * -1 - 2 * -2)| = 4 by norm_num]
    unfold almostZeroR; norm_num
  have hval : squaredDistanceRaySegment almostZeroR r s = ⟨false, 0, 1, some 0⟩ := by
    unfold squaredDistanceRaySegment
    have c1 : ¬ ((2 : ℝ) * -1 - 1 * -2 < 0) := by norm_num
    have c2 : ¬ ((8 : ℝ) * 1 - 2 * 2 < 2 * -1 - 1 * -2) := by norm_num
    have hs : (2 : ℝ) * -1 - 1 * -2 = 0 := by norm_num
    simp only [hu, hw, hv, ha, hb, hc, hd, he, z1, Bool.false_eq_true, if_false, if_neg c1, if_neg c2]
    simp only [hs, z2, z3, if_true, Bool.false_eq_true, if_false, vmax_two]
    rw [max_eq_right (by norm_num), zero_mul]
    simp only [vscale_eq_smul, zero_smul, add_zero, sub_zero, squaredLength]
    rw [dot3]; simp only [Matrix.cons_val_zero, Matrix.cons_val_one, Matrix.cons_val]
    norm_num
  rw [hval]
  refine ⟨rfl, rfl, ?_⟩
  rw [hu, squaredDistance, squaredLength, dot3]
  simp only [r, s, Pi.sub_apply, Pi.add_apply, Pi.smul_apply, smul_eq_mul, Matrix.cons_val_zero, Matrix.cons_val_one,
    Matrix.cons_val]
  norm_num

/-- The functions `distance` return minimal distances whenever the functions `squared_distance` return minimal
squared distances, for every set of admissible pairs of points. -/
theorem C72_distance (az : ℝ) (r1 r2 : Ray ℝ S) (s : Segment ℝ S) (l : Line ℝ S) (P : Vec ℝ S → Vec ℝ S → Prop) :
    ((∀ p q, P p q → (squaredDistanceRayRay az r1 r2).distance ≤ squaredDistance p q) →
      ∀ p q, P p q → (distanceRayRay az r1 r2).distance ≤ distance p q) ∧
    ((∀ p q, P p q → (squaredDistanceRaySegment az r1 s).distance ≤ squaredDistance p q) →
      ∀ p q, P p q → (distanceRaySegment az r1 s).distance ≤ distance p q) ∧
    ((∀ p q, P p q → (squaredDistanceRayLine az r1 l).distance ≤ squaredDistance p q) →
      ∀ p q, P p q → (distanceRayLine az r1 l).distance ≤ distance p q) :=
  ⟨fun h p q hp => Real.sqrt_le_sqrt (h p q hp), fun h p q hp => Real.sqrt_le_sqrt (h p q hp),
    fun h p q hp => Real.sqrt_le_sqrt (h p q hp)⟩

/-- `is_colinear` holds exactly if the objects were found to be parallel and the distance is within the limit. -/
theorem C72_is_colinear (d : LineDistance K) (m : K) :
    d.isColinear m = true ↔ d.parallel = true ∧ d.distance ≤ m := by
  unfold LineDistance.isColinear
  rw [Bool.and_eq_true, exact_le, decide_eq_true_eq]

/-! ### Non-vacuity -/

/-- A point ahead of the origin of a ray and one behind. -/
example : (squaredDistanceRayPoint (⟨![1, 0, 0], ![3 / 5, 4 / 5, 0]⟩ : Ray ℚ 3) ![4, 4, 2]).position = 5 ∧
    (squaredDistanceRayPoint (⟨![1, 0, 0], ![3 / 5, 4 / 5, 0]⟩ : Ray ℚ 3) ![4, 4, 2]).distance = some 4 ∧
    (squaredDistanceRayPoint (⟨![1, 0, 0], ![3 / 5, 4 / 5, 0]⟩ : Ray ℚ 3) ![-4, 0, 2]).position = 0 ∧
    dot (![3 / 5, 4 / 5, 0] : Vec ℚ 3) ![3 / 5, 4 / 5, 0] = 1 := by decide +kernel

/-- Skew rays with a positive position: the hypotheses of the minimality theorem hold. -/
example :
    let r1 : Ray ℚ 3 := ⟨![0, 0, 0], ![1, 0, 0]⟩
    let r2 : Ray ℚ 3 := ⟨![2, -3, 5], ![0, 1, 0]⟩
    (1 / 1000 < gram r2.direction r1.direction) ∧
    (squaredDistanceRayRay (1 / 1000) r1 r2).position1 = 2 ∧ (squaredDistanceRayRay 0 r1 r2).position1 = 2 ∧
    (squaredDistanceRayRay (1 / 1000) r1 r2).distance = 25 ∧ (squaredDistanceRayRay 0 r1 r2).distance = 25 ∧
    (squaredDistanceRayRay (1 / 1000) r1 r2).position2 = some 3 ∧ (squaredDistanceRayRay 0 r1 r2).position2 = some 3 := by
  unfold gram
  decide +kernel

example :
    let r : Ray ℚ 3 := ⟨![0, 0, 0], ![1, 0, 0]⟩
    let l : Line ℚ 3 := ⟨![2, -3, 5], ![0, 1, 0]⟩
    (1 / 1000 < gram r.direction l.direction) ∧ 0 < (squaredDistanceRayLine (1 / 1000) r l).position1 := by
  unfold gram
  decide +kernel

/-- A segment that is crossed by the ray. -/
example : (0 : ℝ) < gram ((![2, 3, 5] : Vec ℝ 3) - ![2, -3, 5]) ![1, 0, 0] := by
  unfold gram
  simp only [dot3, Pi.sub_apply, Matrix.cons_val_zero, Matrix.cons_val_one, Matrix.cons_val]
  norm_num

end vm
