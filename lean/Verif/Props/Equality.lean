import Verif.Model.Quat
import Verif.Props.Approx
import Verif.Props.BBox
import Verif.Props.Polygon

/-!
# C89: equality of compound objects, exact and with tolerance
-/

set_option linter.unusedSectionVars false
set_option linter.unusedSimpArgs false

universe u

namespace vm

section exactArith
variable {K : Type u} [Field K] [LinearOrder K] [IsStrictOrderedRing K] {S R C : ℕ}

/-- Two matrices are equal within a tolerance exactly if all corresponding elements differ by at most the tolerance. -/
theorem C89_matrix_close (a b : Mat K R C) (eps : K) :
    misEqual a b eps = true ↔ ∀ c r, |a c r - b c r| ≤ eps := C75_mat_eq_iff a ⟨b, eps⟩

/-- `is_zero` of a matrix holds exactly if no element has an absolute value greater than the tolerance; it is the same as being
close to the zero matrix. -/
theorem C89_matrix_zero (a : Mat K R C) (eps : K) (heps : 0 ≤ eps) :
    (misZero a eps = true ↔ ∀ c r, |a c r| ≤ eps) ∧ misZero a eps = misEqual a (fun _ _ => 0) eps := by
  have h : misZero a eps = true ↔ ∀ c r, |a c r| ≤ eps := by
    simp only [misZero, visZero, List.all_eq_true, List.mem_finRange, true_implies, isZero_exact, Bool.or_eq_true,
      decide_eq_true_eq]
    constructor
    · intro h c r
      rcases h c r with h | h
      · rw [h, abs_zero]; exact heps
      · exact h
    · intro h c r; exact Or.inr (h c r)
  refine ⟨h, ?_⟩
  rw [Bool.eq_iff_iff, h, C89_matrix_close]
  simp

/-- Matrices are `==` exactly if they are equal, and `!=` is the opposite. -/
theorem C89_matrix_eq (a b : Mat K R C) : (meq a b = true ↔ a = b) ∧ mne a b = !(meq a b) := by
  refine ⟨?_, rfl⟩
  have h : meq a b = misEqual a b 0 := rfl
  rw [h, C89_matrix_close]
  constructor
  · intro h; funext c r
    exact sub_eq_zero.1 (abs_eq_zero.1 (le_antisymm (h c r) (abs_nonneg _)))
  · rintro rfl; simp

/-- Boxes are equal within a tolerance exactly if their corners are, component by component. -/
theorem C89_bbox_close (a b : BBox K S) (eps : K) :
    a.isEqual b eps = true ↔ ∀ i, |a.min i - b.min i| ≤ eps ∧ |a.max i - b.max i| ≤ eps := by
  rw [BBox.isEqual, Bool.and_eq_true, C02_isEqual_iff, C02_isEqual_iff, forall_and]

/-- Rays: origin and direction. -/
theorem C89_ray_close (a b : Ray K S) (eps : K) :
    a.isEqual b eps = true ↔ ∀ i, |a.origin i - b.origin i| ≤ eps ∧ |a.direction i - b.direction i| ≤ eps := by
  rw [Ray.isEqual, Bool.and_eq_true, C02_isEqual_iff, C02_isEqual_iff, forall_and]

/-- Rays are `==` exactly if they are the same, and `!=` is the opposite. -/
theorem C89_ray_eq (a b : Ray K S) : (a.beq b = true ↔ a = b) ∧ a.bne b = !(a.beq b) := by
  constructor
  · rw [Ray.beq, Bool.and_eq_true, veq_exact, veq_exact, decide_eq_true_eq, decide_eq_true_eq, Ray.ext_iff]
  · simp only [Ray.bne, Ray.beq, (C01_operators_consistent _ _).1, Bool.not_and]

/-- Planes: distance and normal. -/
theorem C89_plane_close (a b : Plane K S) (eps : K) :
    a.isEqual b eps = true ↔ |a.distance - b.distance| ≤ eps ∧ ∀ i, |a.normal i - b.normal i| ≤ eps := by
  rw [Plane.isEqual, Bool.and_eq_true, C02_isEqual_iff, isEqual_exact, decide_eq_true_eq]

/-- Planes are `==` exactly if they are the same, and `!=` is the opposite. -/
theorem C89_plane_eq (a b : Plane K S) : (a.beq b = true ↔ a = b) ∧ a.bne b = !(a.beq b) := by
  constructor
  · rw [Plane.beq, Bool.and_eq_true, veq_exact, exact_eq, decide_eq_true_eq, decide_eq_true_eq, Plane.ext_iff]
  · simp only [Plane.bne, Plane.beq, (C01_operators_consistent _ _).1, Bool.not_and]

/-- Planes with unit normals that are `==` have the same points.  The converse fails, see `C89_plane_flip`. -/
theorem C89_plane_points (a b : Plane K S) (h : a.beq b = true) (p : Vec K S) :
    a.pointDistance p = b.pointDistance p := by
  rw [(C89_plane_eq a b).1.1 h]

/-- A plane and the flipped plane contain the same points but are not equal (unless everything is zero). -/
theorem C89_plane_flip (a : Plane K S) (h : dot a.normal a.normal = 1) :
    (∀ p, a.pointDistance p = 0 ↔ a.flip.pointDistance p = 0) ∧ a.beq a.flip = false := by
  constructor
  · intro p
    have : a.flip.pointDistance p = -a.pointDistance p := by
      simp only [Plane.pointDistance, Plane.flip, dot_eq_sum, Pi.neg_apply, mul_neg, Finset.sum_neg_distrib]; ring
    rw [this, neg_eq_zero]
  · rw [← Bool.not_eq_true, (C89_plane_eq _ _).1]
    intro h'
    have hn : ∀ i, a.normal i = 0 := by
      intro i
      have : a.normal i = -a.normal i := congrFun (congrArg Plane.normal h') i
      linarith
    rw [dot_eq_sum] at h
    simp [hn] at h

/-- Segments: the first and the second points in the canonical order. -/
theorem C89_segment_close (a b : Segment K S) (eps : K) :
    a.isEqual b eps = true ↔ ∀ i, |a.start i - b.start i| ≤ eps ∧ |a.end_ i - b.end_ i| ≤ eps := by
  rw [forall_and, ← C02_isEqual_iff, ← C02_isEqual_iff]
  simp only [Segment.isEqual, Segment.compare, visEqual, beq_iff_eq]
  split_ifs with h1 h2
  · simp; omega
  · simp; omega
  · have : vcompare a.start b.start eps = 0 := by omega
    simp [this]

/-- Polygons: the same number of vertices, and corresponding vertices (starting at the canonical first vertex) are close. -/
theorem C89_polygon_close (a b : Polygon K S) (eps : K) :
    a.isEqual b eps = true ↔ List.Forall₂ (fun v w => ∀ i, |v i - w i| ≤ eps) a.vertices b.vertices := by
  obtain ⟨l⟩ := a; obtain ⟨m⟩ := b
  simp only [Polygon.isEqual, Polygon.compare, beq_iff_eq]
  induction l generalizing m with
  | nil => cases m <;> simp [rangeCompare]
  | cons v l ih =>
    cases m with
    | nil => simp [rangeCompare]
    | cons w m =>
      rw [List.forall₂_cons, ← ih, ← C02_isEqual_iff, visEqual, beq_iff_eq, rangeCompare]
      split_ifs with h1 h2
      · simp; omega
      · simp; omega
      · have : vcompare v w eps = 0 := by omega
        simp [this]

/-- Quaternions: the vector parts are close, and the real parts are close up to sign. -/
theorem C89_quat_close (a b : Quat K) (eps : K) :
    a.isEqual b eps = true ↔ (|a.r - b.r| ≤ eps ∨ |a.r + b.r| ≤ eps) ∧ ∀ i, |a.v i - b.v i| ≤ eps := by
  rw [Quat.isEqual, Bool.and_eq_true, C02_isEqual_iff, Bool.or_eq_true, isEqual_exact, isEqual_exact, decide_eq_true_eq,
    decide_eq_true_eq, sub_neg_eq_add]

/-- Equality with a tolerance is reflexive and symmetric for every type of object, and a larger tolerance accepts more. -/
theorem C89_reflexive_symmetric (eps eps' : K) (heps : 0 ≤ eps) (hle : eps ≤ eps') :
    (∀ a b : Mat K R C, misEqual a a eps = true ∧ misEqual a b eps = misEqual b a eps ∧
      (misEqual a b eps = true → misEqual a b eps' = true)) ∧
    (∀ a b : BBox K S, a.isEqual a eps = true ∧ a.isEqual b eps = b.isEqual a eps ∧
      (a.isEqual b eps = true → a.isEqual b eps' = true)) ∧
    (∀ a b : Ray K S, a.isEqual a eps = true ∧ a.isEqual b eps = b.isEqual a eps ∧
      (a.isEqual b eps = true → a.isEqual b eps' = true)) ∧
    (∀ a b : Plane K S, a.isEqual a eps = true ∧ a.isEqual b eps = b.isEqual a eps ∧
      (a.isEqual b eps = true → a.isEqual b eps' = true)) ∧
    (∀ a b : Segment K S, a.isEqual a eps = true ∧ a.isEqual b eps = b.isEqual a eps ∧
      (a.isEqual b eps = true → a.isEqual b eps' = true)) ∧
    (∀ a b : Polygon K S, a.isEqual a eps = true ∧ a.isEqual b eps = b.isEqual a eps ∧
      (a.isEqual b eps = true → a.isEqual b eps' = true)) ∧
    (∀ a b : Quat K, a.isEqual a eps = true ∧ a.isEqual b eps = b.isEqual a eps ∧
      (a.isEqual b eps = true → a.isEqual b eps' = true)) := by
  refine ⟨fun a b => ?_, fun a b => ?_, fun a b => ?_, fun a b => ?_, fun a b => ?_, fun a b => ?_, fun a b => ?_⟩
  · refine ⟨?_, ?_, ?_⟩
    · rw [C89_matrix_close]; simpa using fun _ _ => heps
    · rw [Bool.eq_iff_iff, C89_matrix_close, C89_matrix_close]; simp only [abs_sub_comm]
    · rw [C89_matrix_close, C89_matrix_close]; exact fun h c r => (h c r).trans hle
  · refine ⟨?_, ?_, ?_⟩
    · rw [C89_bbox_close]; simpa using fun _ => heps
    · rw [Bool.eq_iff_iff, C89_bbox_close, C89_bbox_close]; simp only [abs_sub_comm]
    · rw [C89_bbox_close, C89_bbox_close]; exact fun h i => ⟨(h i).1.trans hle, (h i).2.trans hle⟩
  · refine ⟨?_, ?_, ?_⟩
    · rw [C89_ray_close]; simpa using fun _ => heps
    · rw [Bool.eq_iff_iff, C89_ray_close, C89_ray_close]; simp only [abs_sub_comm]
    · rw [C89_ray_close, C89_ray_close]; exact fun h i => ⟨(h i).1.trans hle, (h i).2.trans hle⟩
  · refine ⟨?_, ?_, ?_⟩
    · rw [C89_plane_close]; simpa using ⟨heps, fun _ => heps⟩
    · rw [Bool.eq_iff_iff, C89_plane_close, C89_plane_close]; simp only [abs_sub_comm]
    · rw [C89_plane_close, C89_plane_close]; exact fun h => ⟨h.1.trans hle, fun i => (h.2 i).trans hle⟩
  · refine ⟨?_, ?_, ?_⟩
    · rw [C89_segment_close]; simpa using fun _ => heps
    · rw [Bool.eq_iff_iff, C89_segment_close, C89_segment_close]; simp only [abs_sub_comm]
    · rw [C89_segment_close, C89_segment_close]; exact fun h i => ⟨(h i).1.trans hle, (h i).2.trans hle⟩
  · refine ⟨?_, ?_, ?_⟩
    · rw [C89_polygon_close, List.forall₂_same]; simpa using fun _ _ _ => heps
    · rw [Bool.eq_iff_iff, C89_polygon_close, C89_polygon_close]
      constructor <;> intro h <;> refine (h.imp fun v w h i => ?_).flip <;> rw [abs_sub_comm] <;> exact h i
    · rw [C89_polygon_close, C89_polygon_close]; exact fun h => h.imp fun v w h i => (h i).trans hle
  · refine ⟨?_, ?_, ?_⟩
    · rw [C89_quat_close]; exact ⟨Or.inl (by simpa using heps), fun i => by simpa using heps⟩
    · rw [Bool.eq_iff_iff, C89_quat_close, C89_quat_close]; simp only [abs_sub_comm, add_comm]
    · rw [C89_quat_close, C89_quat_close]
      exact fun h => ⟨h.1.imp (·.trans hle) (·.trans hle), fun i => (h.2 i).trans hle⟩

example : misEqual ![![(1:ℚ), 2], ![3, 4]] ![![1, 2], ![3, 5]] 1 = true ∧
    misEqual ![![(1:ℚ), 2], ![3, 4]] ![![1, 2], ![3, 6]] 1 = false ∧ misZero ![![(0:ℚ), 1], ![-1, 0]] 1 = true ∧
    misZero ![![(0:ℚ), 1], ![-2, 0]] 1 = false ∧ (⟨1/2, ![0, 1, 0]⟩ : Quat ℚ).isEqual ⟨-1/2, ![0, 1, 0]⟩ 0 = true ∧
    (⟨1, ![0, 1]⟩ : Plane ℚ 2).beq ⟨1, ![0, 1]⟩ = true ∧ dot (![3/5, 4/5] : Vec ℚ 2) ![3/5, 4/5] = 1 := by
  decide +kernel

end exactArith

section ieee
variable {F : Fmt} {S R C : ℕ}

/-- In floating point arithmetic a matrix is `==` to another exactly if corresponding elements are equal, where NaN is equal to
NaN.  The same holds for rays and for the normals of planes; but a plane whose distance is NaN is not equal to itself. -/
theorem C89_float_eq (a b : Mat (Flt F) R C) (r s : Ray (Flt F) S) (p q : Plane (Flt F) S) :
    (meq a b = true ↔ ∀ c i, sameScalar (a c i) (b c i)) ∧
    (r.beq s = true ↔ (∀ i, sameScalar (r.origin i) (s.origin i)) ∧ ∀ i, sameScalar (r.direction i) (s.direction i)) ∧
    (p.beq q = true ↔ Cmp.eq p.distance q.distance = true ∧ ∀ i, sameScalar (p.normal i) (q.normal i)) ∧
    (isNan p.distance = true → p.beq p = false) := by
  refine ⟨?_, ?_, ?_, ?_⟩
  · have key : ∀ c, vcompare (a c) (b c) 0 = 0 ↔ ∀ i, sameScalar (a c i) (b c i) := by
      intro c; rw [← C01_eq_is_componentwise, veq, beq_iff_eq]
    simp only [meq, mcompare, beq_iff_eq]
    rcases h : (List.finRange C).findSome? fun c =>
        if vcompare (a c) (b c) 0 ≠ 0 then some (vcompare (a c) (b c) 0) else none with _ | x
    · simp only [Option.getD_none, true_iff]
      rw [findSome_finRange_eq_none] at h
      intro c
      rw [← key]
      by_contra hc
      have := h c
      rw [if_pos hc] at this; cases this
    · simp only [Option.getD_some]
      rw [findSome_finRange_eq_some] at h
      obtain ⟨c, hc, -⟩ := h
      by_cases h0 : vcompare (a c) (b c) 0 = 0
      · rw [if_neg (by simpa using h0)] at hc; cases hc
      · rw [if_pos h0] at hc
        cases hc
        constructor
        · intro h; exact absurd h h0
        · intro h; exact absurd ((key c).2 (h c)) h0
  · rw [Ray.beq, Bool.and_eq_true, C01_eq_is_componentwise, C01_eq_is_componentwise]
  · rw [Plane.beq, Bool.and_eq_true, C01_eq_is_componentwise]
  · intro h
    rw [isNan, Bool.not_eq_true'] at h
    rw [Plane.beq, h, Bool.false_and]

end ieee
end vm
