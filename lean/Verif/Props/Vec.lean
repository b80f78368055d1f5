import Verif.Lemmas.Vec
import Verif.Lemmas.Flt
import Mathlib.LinearAlgebra.AffineSpace.FiniteDimensional
import Mathlib.Analysis.Convex.Segment

/-! # C18 to C25: vector functions -/

universe u

set_option linter.unusedSectionVars false
set_option linter.unusedSimpArgs false

namespace vm

/-! ### C18 -/
section C18
variable {T : Type u}

/-- `swizzle` and `unswizzle` with the same axis are inverse, for every axis argument. -/
theorem C18_inverse (p : Vec T 3) (axis : ℕ) :
    unswizzle (swizzle p axis) axis = p ∧ swizzle (unswizzle p axis) axis = p := by
  rcases axis with _ | _ | n
  · constructor <;> apply ext3 <;> rfl
  · constructor <;> apply ext3 <;> rfl
  · exact ⟨rfl, rfl⟩

/-- `swizzle` moves the component of the given axis (0, 1 or 2) to the last position and keeps the cyclic
order of the components. -/
theorem C18_moves_axis (p : Vec T 3) (axis : Fin 3) :
    swizzle p axis 2 = p axis ∧ swizzle p axis 0 = p (axis + 1) ∧ swizzle p axis 1 = p (axis + 2) := by
  fin_cases axis <;> exact ⟨rfl, rfl, rfl⟩

/-- `swizzle` preserves dot and cross products, hence lengths, angles and orientation. -/
theorem C18_preserves {R : Type u} [CommRing R] (a b : Vec R 3) (axis : ℕ) :
    dot (swizzle a axis) (swizzle b axis) = dot a b ∧
    cross (swizzle a axis) (swizzle b axis) = swizzle (cross a b) axis := by
  rcases axis with _ | _ | n
  · refine ⟨?_, by apply ext3 <;> rfl⟩
    simp only [dot3, swizzle, Matrix.cons_val]; ring
  · refine ⟨?_, by apply ext3 <;> rfl⟩
    simp only [dot3, swizzle, Matrix.cons_val]; ring
  · exact ⟨rfl, rfl⟩

example : swizzle (![1, 2, 3] : Vec ℤ 3) 0 = ![2, 3, 1] := rfl

end C18

/-! ### C19 -/
section C19
variable {R : Type u} [CommRing R] {S : ℕ}

/-- `dot` is the sum of the products of the components; it is symmetric and bilinear. -/
theorem C19_dot (a b c : Vec R S) (k : R) :
    dot a b = ∑ i, a i * b i ∧ dot a b = dot b a ∧ dot a (b + c) = dot a b + dot a c ∧
    dot (vscale a k) b = k * dot a b :=
  ⟨dot_eq_sum a b, dot_comm a b, dot_add_right a b c, by rw [vscale_eq_smul, dot_smul_left]⟩

/-- `cross(a,b)` is orthogonal to both arguments, antisymmetric, and satisfies Lagrange's identity and
the vector triple product identity. -/
theorem C19_cross (a b c : Vec R 3) :
    dot (cross a b) a = 0 ∧ dot (cross a b) b = 0 ∧ cross a b = -cross b a ∧
    dot (cross a b) (cross a b) = dot a a * dot b b - dot a b ^ 2 ∧
    cross a (cross b c) = vscale b (dot a c) - vscale c (dot a b) := by
  refine ⟨?_, ?_, ?_, ?_, ?_⟩
  · simp only [dot3, cross_0, cross_1, cross_2]; ring
  · simp only [dot3, cross_0, cross_1, cross_2]; ring
  · apply ext3 <;> simp only [cross_0, cross_1, cross_2, Pi.neg_apply] <;> ring
  · simp only [dot3, cross_0, cross_1, cross_2]; ring
  · apply ext3 <;> simp only [dot3, cross_0, cross_1, cross_2, vscale, Pi.sub_apply] <;> ring

/-- `cross(a,b)` vanishes exactly for linearly dependent vectors. -/
theorem C19_cross_zero_iff {K : Type u} [Field K] [LinearOrder K] [IsStrictOrderedRing K]
    (a b : Vec K 3) :
    cross a b = 0 ↔ ∃ x y : K, (x ≠ 0 ∨ y ≠ 0) ∧ x • a = y • b := by
  rw [← dot_self_eq_zero, (C19_cross a b 0).2.2.2.1, sub_eq_zero, eq_comm, dot_sq_eq_iff]

/-- Cauchy-Schwarz inequality for `dot`. -/
theorem C19_cauchy_schwarz {K : Type u} [Field K] [LinearOrder K] [IsStrictOrderedRing K]
    (a b : Vec K S) : dot a b ^ 2 ≤ dot a a * dot b b := dot_sq_le a b

end C19

section C19float
variable {F : Fmt} {S : ℕ}

/-- In floating point arithmetic, with rounding, overflow and NaN, `dot` is still exactly symmetric and
`cross` exactly antisymmetric. -/
theorem C19_floating_point (a b : Vec (Flt F) S) (c d : Vec (Flt F) 3) :
    dot a b = dot b a ∧ cross c d = -cross d c := by
  constructor
  · unfold dot
    congr 1
    funext r i
    rw [Flt.mul_comm']
  · apply ext3
    · show c 1 * d 2 - c 2 * d 1 = -(d 1 * c 2 - d 2 * c 1)
      rw [Flt.neg_sub', Flt.mul_comm' (c 1), Flt.mul_comm' (c 2)]
    · show c 2 * d 0 - c 0 * d 2 = -(d 2 * c 0 - d 0 * c 2)
      rw [Flt.neg_sub', Flt.mul_comm' (c 2), Flt.mul_comm' (c 0)]
    · show c 0 * d 1 - c 1 * d 0 = -(d 0 * c 1 - d 1 * c 0)
      rw [Flt.neg_sub', Flt.mul_comm' (c 0), Flt.mul_comm' (c 1)]

example : cross (![1, 0, 0] : Vec ℚ 3) ![0, 1, 0] = ![0, 0, 1] := by
  decide +kernel

end C19float

/-! ### C20 -/
section C20
variable {S : ℕ}

/-- `length` is the Euclidean length; `distance` is a metric. -/
theorem C20_length_metric (v w x : Vec ℝ S) (k : ℝ) :
    length v = Real.sqrt (∑ i, v i ^ 2) ∧ (length v = 0 ↔ v = 0) ∧ length (vscale v k) = |k| * length v ∧
    (distance v w = 0 ↔ v = w) ∧ distance v w = distance w v ∧
    distance v x ≤ distance v w + distance w x ∧ squaredDistance v w = distance v w ^ 2 := by
  refine ⟨?_, length_eq_zero, by rw [vscale_eq_smul, length_smul], ?_, ?_, ?_, ?_⟩
  · rw [length, squaredLength, dot_eq_sum]; simp [sq]
  · rw [distance, length_eq_zero, sub_eq_zero]
  · rw [distance, distance, ← neg_sub, length_eq_norm, WithLp.toLp_neg, norm_neg, ← length_eq_norm]
  · simp only [distance, length_eq_norm]
    have : v - x = (v - w) + (w - x) := by abel
    rw [this, WithLp.toLp_add]
    exact norm_add_le _ _
  · rw [distance, length_sq]; rfl

/-- `normalize(v)` of a non-zero vector is the unique unit vector that is a positive multiple of `v`; for
the zero vector there is no result (NaN components). -/
theorem C20_normalize (v : Vec ℝ S) :
    (v ≠ 0 → ∃ u, normalize v = some u ∧ length u = 1 ∧ (∃ k : ℝ, 0 < k ∧ v = vscale u k) ∧
      ∀ u' : Vec ℝ S, length u' = 1 → (∃ k : ℝ, 0 < k ∧ v = vscale u' k) → u' = u) ∧
    (v = 0 → normalize v = none) := by
  constructor
  · intro hv
    have hl := length_pos hv
    refine ⟨_, normalize_of_ne hv, ?_, ⟨length v, hl, ?_⟩, ?_⟩
    · rw [length_smul, abs_of_pos (by positivity), inv_mul_cancel₀ hl.ne']
    · rw [vscale_eq_smul, smul_smul, mul_inv_cancel₀ hl.ne', one_smul]
    · rintro u' hu' ⟨k, hk, hv'⟩
      rw [vscale_eq_smul] at hv'
      have : length v = k := by rw [hv', length_smul, hu', abs_of_pos hk, mul_one]
      rw [this, hv', smul_smul, inv_mul_cancel₀ hk.ne', one_smul]
  · rintro rfl; exact normalize_zero

/-- `is_unit` accepts exactly the vectors whose length differs from 1 by at most epsilon. -/
theorem C20_isUnit (v : Vec ℝ S) (epsilon : ℝ) : isUnit v epsilon = true ↔ |length v - 1| ≤ epsilon := by
  rw [isUnit, isEqual_exact, decide_eq_true_eq]

/-- `is_parallel` with epsilon 0 holds exactly for non-zero vectors on a common line through the origin. -/
theorem C20_isParallel (v w : Vec ℝ S) :
    isParallel v w 0 = true ↔ v ≠ 0 ∧ w ≠ 0 ∧ ∃ k : ℝ, w = vscale v k := by
  unfold isParallel
  by_cases hv : v = 0
  · simp [hv, normalize_zero]
  by_cases hw : w = 0
  · rw [hw, normalize_zero, normalize_of_ne hv]; simp
  rw [normalize_of_ne hv, normalize_of_ne hw]
  simp only [isEqual_exact, decide_eq_true_eq, abs_exact, ne_eq, hv, hw, not_false_iff, true_and]
  have lv := length_pos hv
  have lw := length_pos hw
  rw [abs_nonpos_iff, sub_eq_zero, dot_smul_left, dot_smul_right, ← abs_one, ← sq_eq_sq_iff_abs_eq_abs, one_pow]
  have hl : (length v ^ 2) * (length w ^ 2) = dot v v * dot w w := by rw [length_sq, length_sq]
  constructor
  · intro h
    have h2 : dot v w ^ 2 = dot v v * dot w w := by
      rw [← hl]; field_simp at h; linarith
    obtain ⟨x, y, hxy, he⟩ := (dot_sq_eq_iff v w).1 h2
    have hy : y ≠ 0 := by
      rintro rfl
      rcases hxy with hx | hx
      · rw [zero_smul] at he
        exact hv ((smul_eq_zero.1 he).resolve_left hx)
      · exact hx rfl
    refine ⟨y⁻¹ * x, ?_⟩
    rw [vscale_eq_smul, mul_smul, he, smul_smul, inv_mul_cancel₀ hy, one_smul]
  · rintro ⟨k, rfl⟩
    rw [vscale_eq_smul] at *
    have h2 : dot v (k • v) ^ 2 = dot v v * dot (k • v) (k • v) := by
      rw [dot_smul_right, dot_smul_left, dot_smul_right]; ring
    rw [← hl] at h2
    field_simp
    linarith

example : length (![3, 4] : Vec ℝ 2) = 5 ∧ (![3, 4] : Vec ℝ 2) ≠ 0 := by
  constructor
  · rw [length, squaredLength, dot_eq_sum, Fin.sum_univ_two]
    rw [Real.sqrt_eq_iff_mul_self_eq_of_pos (by norm_num)]
    norm_num
  · intro h; have := congrFun h 0; norm_num at this

end C20

/-! ### C21 -/
section C21
variable {K : Type u} [Field K] [LinearOrder K] [IsStrictOrderedRing K] {S : ℕ}

theorem isColinear_exact (a b c : Vec K S) (e : K) :
    isColinear a b c e =
      isZero (dot (a - c) (b - a) * dot (a - c) (b - a) - dot (a - c) (a - c) * dot (b - a) (b - a)) e := by
  have gen : ∀ (n : ℕ) (f g h : Fin n → K) (x y z : K),
      Fin.foldl n (fun (acc : K × K × K) i => (acc.1 + f i, acc.2.1 + g i, acc.2.2 + h i)) (x, y, z)
        = (x + ∑ i, f i, y + ∑ i, g i, z + ∑ i, h i) := by
    intro n
    induction n with
    | zero => intro f g h x y z; simp
    | succ n ih =>
      intro f g h x y z
      rw [Fin.foldl_succ, ih]
      simp only [Fin.sum_univ_succ, add_assoc]
  unfold isColinear
  have := gen S (fun i => (a i - c i) * (b i - a i)) (fun i => (a i - c i) * (a i - c i))
    (fun i => (b i - a i) * (b i - a i)) 0 0 0
  simp only [this, zero_add, dot_eq_sum, Pi.sub_apply]

/-- `is_colinear` with epsilon 0 decides whether three points lie on a common line, in every dimension. -/
theorem C21_isColinear (a b c : Vec K S) :
    isColinear a b c 0 = true ↔ Collinear K ({a, b, c} : Set (Fin S → K)) := by
  rw [isColinear_exact, isZero_zero_exact, decide_eq_true_eq, sub_eq_zero, ← sq, dot_sq_eq_iff,
    collinear_iff_of_mem (p₀ := a) (by simp)]
  constructor
  · rintro ⟨x, y, hxy, h⟩
    by_cases hx : x = 0
    · have hy : y ≠ 0 := hxy.resolve_left (not_not.2 hx)
      rw [hx, zero_smul] at h
      have hba : b = a := by
        have := (smul_eq_zero.1 h.symm).resolve_left hy
        exact sub_eq_zero.1 this
      refine ⟨c - a, ?_⟩
      intro p hp
      simp only [Set.mem_insert_iff, Set.mem_singleton_iff] at hp
      rcases hp with rfl | rfl | rfl
      · exact ⟨0, by simp⟩
      · exact ⟨0, by simp [hba]⟩
      · exact ⟨1, by simp⟩
    · refine ⟨b - a, ?_⟩
      intro p hp
      simp only [Set.mem_insert_iff, Set.mem_singleton_iff] at hp
      rcases hp with rfl | rfl | rfl
      · exact ⟨0, by simp⟩
      · exact ⟨1, by simp⟩
      · refine ⟨-(x⁻¹ * y), ?_⟩
        have : a - p = (x⁻¹ * y) • (b - a) := by
          rw [mul_smul, ← h, smul_smul, inv_mul_cancel₀ hx, one_smul]
        rw [neg_smul, ← this]; simp
  · rintro ⟨d, hd⟩
    obtain ⟨s, hs⟩ := hd b (by simp)
    obtain ⟨t, ht⟩ := hd c (by simp)
    simp only [vadd_eq_add] at hs ht
    have e1 : b - a = s • d := by rw [hs]; simp
    have e2 : a - c = (-t) • d := by rw [ht, neg_smul]; simp
    by_cases hst : s = 0 ∧ t = 0
    · exact ⟨1, 0, Or.inl one_ne_zero, by rw [e1, e2, hst.1, hst.2]; simp⟩
    · refine ⟨s, -t, ?_, by rw [e1, e2, smul_smul, smul_smul, mul_comm]⟩
      rw [not_and_or] at hst
      simpa using hst

example : isColinear (![0, 0] : Vec ℚ 2) ![1, 1] ![2, 2] 0 = true ∧
    isColinear (![0, 0] : Vec ℚ 2) ![1, 1] ![2, 3] 0 = false := by decide +kernel

end C21

/-! ### C22 -/
section C22
variable {S : ℕ}

/-- For a point on the line through `start` and `end`, `is_between` decides whether it is on the closed
segment. -/
theorem C22_isBetween (p s e : Vec ℝ S) (h : ∃ t : ℝ, p = s + t • (e - s)) :
    isBetween p s e = true ↔ p ∈ segment ℝ s e := by
  obtain ⟨t, rfl⟩ := h
  unfold isBetween
  by_cases h1 : s + t • (e - s) = s
  · rw [if_pos (by simp [veq_exact, h1])]
    simp only [true_iff]
    rw [h1]; exact left_mem_segment ℝ s e
  by_cases h2 : s + t • (e - s) = e
  · rw [if_pos (by simp [veq_exact, h2])]
    simp only [true_iff]
    rw [h2]; exact right_mem_segment ℝ s e
  have hes : e - s ≠ 0 := by
    intro h; rw [h] at h1; simp at h1
  have ht0 : t ≠ 0 := by rintro rfl; simp at h1
  have ht1 : t ≠ 1 := by rintro rfl; simp at h2
  rw [if_neg]
  swap
  · simp [veq_exact, h1, h2]
  have e1 : s - (s + t • (e - s)) = (-t) • (e - s) := by rw [neg_smul]; simp
  have e2 : e - (s + t • (e - s)) = (1 - t) • (e - s) := by rw [sub_smul, one_smul]; abel
  have hne : (-t) • (e - s) ≠ 0 := smul_ne_zero (neg_ne_zero.2 ht0) hes
  simp only [e1, e2, normalize_of_ne hne, decide_eq_true_eq]
  rw [dot_smul_right, dot_smul_left, dot_smul_right]
  have hl := length_pos hne
  have hd := dot_self_pos hes
  have : (length ((-t) • (e - s)))⁻¹ * ((1 - t) * (-t * dot (e - s) (e - s))) < 0 ↔ 0 < t ∧ t < 1 := by
    have hk : 0 < (length ((-t) • (e - s)))⁻¹ := by positivity
    rw [mul_neg_iff]
    simp only [hk, true_and, not_lt.2 hk.le, hk.not_gt, false_and, or_false]
    constructor
    · intro h
      have h3 : 0 < t * (1 - t) := by nlinarith
      constructor
      · by_contra h4; push Not at h4; nlinarith
      · by_contra h4; push Not at h4
        nlinarith [mul_pos_iff.1 h3]
    · rintro ⟨h3, h4⟩
      have : 0 < t * (1 - t) * dot (e - s) (e - s) := by
        apply mul_pos (mul_pos h3 (by linarith)) hd
      nlinarith
  rw [this, segment_eq_image']
  constructor
  · rintro ⟨h3, h4⟩; exact ⟨t, ⟨h3.le, h4.le⟩, rfl⟩
  · rintro ⟨u, ⟨hu0, hu1⟩, hu⟩
    have : u = t := by
      have h5 : (u - t) • (e - s) = 0 := by
        simp only at hu
        rw [sub_smul, sub_eq_zero]; exact add_left_cancel hu
      exact sub_eq_zero.1 ((smul_eq_zero.1 h5).resolve_right hes)
    subst this
    exact ⟨lt_of_le_of_ne hu0 (Ne.symm ht0), lt_of_le_of_ne hu1 ht1⟩

example : ∃ t : ℝ, (![1, 1] : Vec ℝ 2) = ![0, 0] + t • (![2, 2] - ![0, 0]) :=
  ⟨1 / 2, by funext i; fin_cases i <;> norm_num⟩

end C22

/-! ### C23 -/
section C23
variable {K : Type u} [Field K] {S : ℕ}

/-- Converting to homogeneous coordinates and back is the identity, and scaling homogeneous coordinates by
a non-zero factor does not change the point. -/
theorem C23_homogeneous (p : Vec K S) (h : Vec K (S + 1)) (k : K) (hk : k ≠ 0) :
    toCartesian (toHomogeneous p) = p ∧
    toCartesian (vscale h k) = toCartesian h := by
  constructor
  · funext i
    simp [toCartesian, toHomogeneous]
  · funext i
    simp only [toCartesian, vscale]
    rw [mul_div_mul_right _ _ hk]

/-- Conversely a vector with non-zero last component is a multiple of the homogeneous coordinates of its
cartesian point. -/
theorem C23_homogeneous_converse (h : Vec K (S + 1)) (hw : h (Fin.last S) ≠ 0) :
    h = vscale (toHomogeneous (toCartesian h)) (h (Fin.last S)) := by
  funext i
  refine Fin.lastCases ?_ (fun j => ?_) i
  · simp [vscale, toHomogeneous]
  · simp [vscale, toHomogeneous, toCartesian, hw]

example : toCartesian (![2, 4, 2] : Vec ℚ 3) = ![1, 2] ∧ (2 : ℚ) ≠ 0 := by
  refine ⟨?_, by norm_num⟩
  funext i; fin_cases i <;> norm_num [toCartesian, Fin.last]

end C23

/-! ### C24 -/
section C24
variable {K : Type u} [Field K] [LinearOrder K] [IsStrictOrderedRing K] {S : ℕ}

theorem average_fold (rest : List (Vec K S)) (v : Vec K S) (n : K) :
    rest.foldl (fun (acc : Vec K S × K) p => (acc.1 + p, acc.2 + 1)) (v, n)
      = (v + rest.sum, n + rest.length) := by
  induction rest generalizing v n with
  | nil => simp
  | cons r rest ih => rw [List.foldl_cons, ih]; simp [add_assoc, add_comm, add_left_comm]

theorem average_exact (first : Vec K S) (rest : List (Vec K S)) (i : Fin S) :
    average first rest i = (first i + rest.sum i) / (1 + rest.length) := by
  simp only [average, average_fold, vdivs, Pi.add_apply]

/-- `average` of a non-empty list: its multiple by the number of points is the sum of the points. -/
theorem C24_average (first : Vec K S) (rest : List (Vec K S)) :
    vscale (average first rest) ((first :: rest).length : K) = (first :: rest).sum := by
  funext i
  have h : (1 + (rest.length : K)) ≠ 0 := by positivity
  simp only [vscale, average_exact, List.length_cons, List.sum_cons, Pi.add_apply]
  push_cast
  rw [add_comm (rest.length : K)]
  field_simp

/-- The order of the points does not matter. -/
theorem C24_average_perm (f g : Vec K S) (l m : List (Vec K S)) (h : (f :: l).Perm (g :: m)) :
    average f l = average g m := by
  have hs := h.sum_eq
  have hl := h.length_eq
  funext i
  simp only [average_exact]
  have := congrFun hs i
  simp only [List.sum_cons, Pi.add_apply, List.length_cons] at this hl
  rw [this]; congr 2
  exact_mod_cast (by omega : l.length = m.length)

/-- Translating all points translates the average. -/
theorem C24_average_translate (f d : Vec K S) (l : List (Vec K S)) :
    average (f + d) (l.map (· + d)) = average f l + d := by
  funext i
  have h : (1 + (l.length : K)) ≠ 0 := by positivity
  have hs : (l.map (· + d)).sum i = l.sum i + l.length * d i := by
    induction l with
    | nil => simp
    | cons a l ih =>
      have := ih (by positivity)
      simp only [List.map_cons, List.sum_cons, Pi.add_apply, this, List.length_cons]
      push_cast; ring
  simp only [average_exact, hs, List.length_map, Pi.add_apply]
  field_simp; ring

/-- The average lies in every axis-aligned box that contains all points. -/
theorem C24_average_in_box (f lo hi : Vec K S) (l : List (Vec K S))
    (h : ∀ p ∈ f :: l, ∀ i, lo i ≤ p i ∧ p i ≤ hi i) (i : Fin S) :
    lo i ≤ average f l i ∧ average f l i ≤ hi i := by
  have hp : 0 < 1 + (l.length : K) := by positivity
  have hs : (l.length : K) * lo i ≤ l.sum i ∧ l.sum i ≤ l.length * hi i := by
    have h' : ∀ p ∈ l, lo i ≤ p i ∧ p i ≤ hi i := fun p hp => h p (by simp [hp]) i
    clear h hp
    induction l with
    | nil => simp
    | cons a l ih =>
      obtain ⟨h1, h2⟩ := ih (fun p hp => h' p (by simp [hp]))
      have := h' a (by simp)
      simp only [List.sum_cons, Pi.add_apply, List.length_cons]
      push_cast
      constructor <;> nlinarith
  have hf := h f (by simp) i
  rw [average_exact, le_div_iff₀ hp, div_le_iff₀ hp]
  constructor <;> nlinarith

example : average (![0, 0] : Vec ℚ 2) [![2, 4]] = ![1, 2] ∧
    (∀ p ∈ [(![0, 0] : Vec ℚ 2), ![2, 4]], ∀ i, (![0, 0] : Vec ℚ 2) i ≤ p i ∧ p i ≤ (![2, 4] : Vec ℚ 2) i) := by
  decide +kernel

end C24

/-! ### C25 -/
section C25

/-- For unit vectors `v` and `axis` orthogonal to the unit vector `up`, `measure_angle` is the angle in
`[0, 2π)` by which `axis` must be turned counter-clockwise about `up` to reach `v`. -/
theorem C25_measureAngle (v axis up : Vec ℝ 3) (hv : dot v v = 1) (ha : dot axis axis = 1)
    (hu : dot up up = 1) (hau : dot axis up = 0) (hvu : dot v up = 0) :
    0 ≤ measureAngle v axis up ∧ measureAngle v axis up < 2 * Real.pi ∧
    v = vscale axis (Real.cos (measureAngle v axis up)) +
      vscale (cross up axis) (Real.sin (measureAngle v axis up)) := by
  -- decomposition of v in the orthonormal basis axis, up × axis
  set c := dot v axis with hc
  set s := dot (cross axis v) up with hs
  have hgram : s ^ 2 = dot v v * dot up up * dot axis axis + 2 * dot v up * dot axis up * dot v axis
      - dot v v * dot axis up ^ 2 - dot up up * dot v axis ^ 2 - dot axis axis * dot v up ^ 2 := by
    rw [hs]; simp only [dot3, cross_0, cross_1, cross_2]; ring
  rw [hv, ha, hu, hau, hvu, ← hc] at hgram
  have hcs : c ^ 2 + s ^ 2 = 1 := by linarith
  have hvec : v = vscale axis c + vscale (cross up axis) s := by
    rw [vscale_eq_smul, vscale_eq_smul, ← sub_eq_zero, ← dot_self_eq_zero]
    have h1 : dot (cross up axis) (cross up axis) = 1 := by
      have := (C19_cross up axis 0).2.2.2.1
      rw [this, hu, ha, dot_comm up, hau]; ring
    have h2 : dot v (cross up axis) = s := by
      rw [hs]; simp only [dot3, cross_0, cross_1, cross_2]; ring
    have h3 : dot axis (cross up axis) = 0 := by
      simp only [dot3, cross_0, cross_1, cross_2]; ring
    have e : dot (v - (c • axis + s • cross up axis)) (v - (c • axis + s • cross up axis))
        = dot v v - 2 * c * dot v axis - 2 * s * dot v (cross up axis) + c ^ 2 * dot axis axis
          + s ^ 2 * dot (cross up axis) (cross up axis) + 2 * c * s * dot axis (cross up axis) := by
      simp only [dot_sub_left, dot_sub_right, dot_add_left, dot_add_right, dot_smul_left, dot_smul_right]
      rw [dot_comm axis v, dot_comm (cross up axis) v, dot_comm (cross up axis) axis]; ring
    rw [e, hv, ha, h1, h2, h3, ← hc]; linear_combination -hcs
  have hc1 : -1 ≤ c ∧ c ≤ 1 := by
    constructor <;> nlinarith [sq_nonneg s]
  have hclamp : clamp c (-1) 1 = c := by
    rw [clamp_exact, min_eq_left hc1.2, max_eq_left hc1.1]
  have hcos : Real.cos (Real.arccos c) = c := Real.cos_arccos hc1.1 hc1.2
  have hsin : Real.sin (Real.arccos c) = |s| := by
    rw [Real.sin_arccos, ← Real.sqrt_sq_eq_abs]; congr 1; linarith
  unfold measureAngle
  simp only [← hc, ← hs, hclamp]
  have hpi := Real.pi_pos
  split_ifs with h
  · refine ⟨Real.arccos_nonneg c, by linarith [Real.arccos_le_pi c], ?_⟩
    rw [hcos, hsin, abs_of_nonneg h]; exact hvec
  · push Not at h
    have hpos : 0 < Real.arccos c := by
      rw [Real.arccos_pos]; nlinarith
    refine ⟨by linarith [Real.arccos_le_pi c], by linarith, ?_⟩
    rw [Real.cos_two_pi_sub, Real.sin_two_pi_sub, hcos, hsin, abs_of_neg h, neg_neg]; exact hvec

example : dot (![0, 1, 0] : Vec ℝ 3) ![0, 1, 0] = 1 ∧ dot (![1, 0, 0] : Vec ℝ 3) ![1, 0, 0] = 1 ∧
    dot (![0, 0, 1] : Vec ℝ 3) ![0, 0, 1] = 1 ∧ dot (![1, 0, 0] : Vec ℝ 3) ![0, 0, 1] = 0 ∧
    dot (![0, 1, 0] : Vec ℝ 3) ![0, 0, 1] = 0 := by
  simp [dot3]

end C25
end vm
