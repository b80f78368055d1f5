import Verif.Props.Plane
import Verif.Lemmas.Order

/-! # C57, C58, C78: lines, rays and projections onto them -/

universe u

set_option linter.unusedSectionVars false
set_option linter.unusedSimpArgs false

namespace vm

/-! ### C57 -/
section C57
variable {K : Type u} [Field K] [LinearOrder K] [IsStrictOrderedRing K] {S : ℕ}

/-- Specification: the points of the line through `o` with direction `d`. -/
def OnLine (o d q : Vec K S) : Prop := ∃ t : K, q = o + t • d

theorem canonicalDirection_or (d : Vec K S) : canonicalDirection d = d ∨ canonicalDirection d = -d := by
  unfold canonicalDirection
  split
  · split_ifs
    · exact Or.inr rfl
    · exact Or.inl rfl
  · exact Or.inl rfl

theorem canonicalDirection_neg (d : Vec K S) : canonicalDirection (-d) = canonicalDirection d := by
  unfold canonicalDirection
  have e : (fun i => !(Cmp.eq ((-d) i) 0)) = (fun i => !(Cmp.eq (d i) 0)) := by
    funext i; simp
  rw [e]
  rcases h : (List.finRange S).find? (fun i => !(Cmp.eq (d i) 0)) with _ | i
  · have : d = 0 := by
      funext i
      have := List.find?_eq_none.1 h i (List.mem_finRange i)
      simpa using this
    simp [this]
  · have hi : d i ≠ 0 := by simpa using List.find?_some h
    rcases lt_or_gt_of_ne hi with h1 | h1
    · simp [h1, not_lt_of_gt h1, le_of_lt h1]
    · simp [h1, not_lt_of_gt h1, le_of_lt h1]

/-- The first non-zero component of the canonical direction is positive. -/
theorem canonicalDirection_first (d : Vec K S) (i : Fin S) (hi : d i ≠ 0) (hj : ∀ j < i, d j = 0) :
    0 < canonicalDirection d i := by
  have h : (List.finRange S).find? (fun i => !(Cmp.eq (d i) 0)) = some i := by
    rcases h : (List.finRange S).find? (fun i => !(Cmp.eq (d i) 0)) with _ | k
    · have := List.find?_eq_none.1 h i (List.mem_finRange i)
      simp [hi] at this
    · have hk : d k ≠ 0 := by simpa using List.find?_some h
      have h1 : ¬ k < i := fun hlt => hk (hj k hlt)
      have h2 : ¬ i < k := by
        intro hlt
        rw [List.find?_eq_some_iff_getElem] at h
        obtain ⟨_, n, hn, hnk, hall⟩ := h
        have hnk' : n = k.val := by have := congrArg Fin.val hnk; simpa using this
        have := hall i.val (by rw [hnk']; exact hlt)
        simp [hi] at this
      rw [le_antisymm (not_lt.1 h2) (not_lt.1 h1)]
  unfold canonicalDirection
  rw [h]
  simp only
  rcases lt_or_gt_of_ne hi with h1 | h1
  · simp [h1]
  · simp [h1, not_lt_of_gt h1]

/-- `make_canonical` keeps the point set, yields a support point orthogonal to the direction and a direction
whose first non-zero component is positive, and is idempotent. -/
theorem C57_canonical (l : Line K S) (hd : dot l.direction l.direction = 1) :
    (∀ q, OnLine l.makeCanonical.point l.makeCanonical.direction q ↔ OnLine l.point l.direction q) ∧
    dot l.makeCanonical.point l.makeCanonical.direction = 0 ∧
    (∃ i, 0 < l.makeCanonical.direction i ∧ ∀ j < i, l.makeCanonical.direction j = 0) ∧
    l.makeCanonical.makeCanonical = l.makeCanonical := by
  have hp : l.makeCanonical.point = l.point - dot l.point l.direction • l.direction := by
    simp [Line.makeCanonical, vscale_eq_smul]
  have hdir : l.makeCanonical.direction = canonicalDirection l.direction := rfl
  have horth : dot (l.point - dot l.point l.direction • l.direction) l.direction = 0 := by
    rw [dot_sub_left, dot_smul_left, hd]; ring
  have horth' : dot l.makeCanonical.point l.makeCanonical.direction = 0 := by
    rw [hp, hdir]
    rcases canonicalDirection_or l.direction with h | h <;> rw [h]
    · exact horth
    · rw [dot_neg_right, horth, neg_zero]
  refine ⟨fun q => ?_, horth', ?_, ?_⟩
  · rw [hp, hdir]
    rcases canonicalDirection_or l.direction with h | h <;> rw [h]
    · constructor
      · rintro ⟨t, rfl⟩; exact ⟨t - dot l.point l.direction, by rw [sub_smul]; abel⟩
      · rintro ⟨t, rfl⟩; exact ⟨t + dot l.point l.direction, by rw [add_smul]; abel⟩
    · constructor
      · rintro ⟨t, rfl⟩; exact ⟨-t - dot l.point l.direction, by rw [sub_smul, neg_smul, smul_neg]; abel⟩
      · rintro ⟨t, rfl⟩; exact ⟨-t - dot l.point l.direction, by rw [sub_smul, neg_smul, smul_neg, smul_neg]; abel⟩
  · have hne : ∃ i, l.direction i ≠ 0 := by
      by_contra hc
      have h0 : l.direction = 0 := by
        funext i; by_contra h; exact hc ⟨i, h⟩
      rw [h0, dot_zero_left] at hd
      exact zero_ne_one hd
    let P : Fin S → Prop := fun i => l.direction i ≠ 0
    obtain ⟨i, hi, hmin⟩ : ∃ i, P i ∧ ∀ j < i, ¬ P j := by
      obtain ⟨i, hi, hm⟩ := WellFounded.has_min (wellFounded_lt (α := Fin S)) {i | P i} hne
      exact ⟨i, hi, fun j hj hP => hm j hP hj⟩
    have hz : ∀ j < i, l.direction j = 0 := fun j hj => not_not.1 (hmin j hj)
    refine ⟨i, canonicalDirection_first _ i hi hz, fun j hj => ?_⟩
    rw [hdir]
    rcases canonicalDirection_or l.direction with h | h <;> rw [h]
    · exact hz j hj
    · simp [hz j hj]
  · apply Line.ext
    · show l.makeCanonical.point - vscale l.makeCanonical.direction (dot l.makeCanonical.point l.makeCanonical.direction) = _
      rw [horth', vscale_eq_smul, zero_smul, sub_zero]
    · show canonicalDirection l.makeCanonical.direction = _
      rw [hdir]
      rcases canonicalDirection_or l.direction with h | h
      · rw [h, h]
      · rw [h, canonicalDirection_neg, h]

/-- Lines with unit direction are equal exactly if they consist of the same points; `!=` is the negation. -/
theorem C57_equality (l1 l2 : Line K S) (h1 : dot l1.direction l1.direction = 1)
    (h2 : dot l2.direction l2.direction = 1) :
    (Line.beq l1 l2 = true ↔ ∀ q, OnLine l1.point l1.direction q ↔ OnLine l2.point l2.direction q) ∧
    Line.bne l1 l2 = !(Line.beq l1 l2) := by
  obtain ⟨s1, o1, -, -⟩ := C57_canonical l1 h1
  obtain ⟨s2, o2, -, -⟩ := C57_canonical l2 h2
  refine ⟨?_, ?_⟩
  · unfold Line.beq
    rw [Bool.and_eq_true, veq_exact, veq_exact, decide_eq_true_eq, decide_eq_true_eq]
    constructor
    · rintro ⟨hp, hd⟩ q
      rw [← s1, ← s2, hp, hd]
    · intro h
      -- the directions are parallel
      have hpar : l2.direction = l1.direction ∨ l2.direction = -l1.direction := by
        obtain ⟨t0, e0⟩ := (h l2.point).2 ⟨0, by simp⟩
        obtain ⟨t1, e1⟩ := (h (l2.point + l2.direction)).2 ⟨1, by simp⟩
        have e : l2.direction = (t1 - t0) • l1.direction := by
          have : l2.direction = (l2.point + l2.direction) - l2.point := by abel
          rw [this, e1, e0, sub_smul]; abel
        have hsq : (t1 - t0) * (t1 - t0) = 1 := by
          rw [e, dot_smul_left, dot_smul_right, h1, mul_one] at h2; exact h2
        rcases mul_self_eq_one_iff.1 hsq with ht | ht
        · left; rw [e, ht, one_smul]
        · right; rw [e, ht, neg_smul, one_smul]
      have hdir : l1.makeCanonical.direction = l2.makeCanonical.direction := by
        show canonicalDirection l1.direction = canonicalDirection l2.direction
        rcases hpar with e | e <;> rw [e]
        rw [canonicalDirection_neg]
      refine ⟨?_, hdir⟩
      -- the support points both are the point of the line orthogonal to the direction
      obtain ⟨t, e⟩ := (s1 l2.makeCanonical.point).2 ((h _).2 ((s2 _).1 ⟨0, by simp⟩))
      rw [← hdir, e, dot_add_left, o1, dot_smul_left, zero_add] at o2
      have hu : dot l1.makeCanonical.direction l1.makeCanonical.direction = 1 := by
        show dot (canonicalDirection l1.direction) (canonicalDirection l1.direction) = 1
        rcases canonicalDirection_or l1.direction with h | h <;> rw [h]
        · exact h1
        · rw [dot_neg_left, dot_neg_right, neg_neg, h1]
      rw [hu, mul_one] at o2
      rw [e, o2, zero_smul, add_zero]
  · unfold Line.bne Line.beq
    simp [vne, veq, bne]

example : Line.beq (⟨![1, 2], ![3/5, 4/5]⟩ : Line ℚ 2) ⟨![4, 6], ![-3/5, -4/5]⟩ = true ∧
    dot (![3/5, 4/5] : Vec ℚ 2) ![3/5, 4/5] = 1 ∧
    Line.beq (⟨![1, 2], ![3/5, 4/5]⟩ : Line ℚ 2) ⟨![4, 7], ![-3/5, -4/5]⟩ = false := by
  decide +kernel

end C57

/-! ### C58 -/
section C58
variable {K : Type u} [Field K] [LinearOrder K] [IsStrictOrderedRing K] {S : ℕ}

/-- For a line, ray or segment with unit direction, `project_point` is the point of the carrier line closest
to the given point, the only closest one, `distance_to_projected_point` is its parameter, and the residual is
orthogonal to the line. -/
theorem C58_projection (o d : Vec K S) (hd : dot d d = 1) (p : Vec K S) :
    projectPoint o d p = o + distanceToProjectedPoint o d p • d ∧
    dot (p - projectPoint o d p) d = 0 ∧
    (∀ q, OnLine o d q → squaredDistance p (projectPoint o d p) ≤ squaredDistance p q ∧
      (squaredDistance p q = squaredDistance p (projectPoint o d p) → q = projectPoint o d p)) ∧
    (OnLine o d p → projectPoint o d p = p) := by
  have hproj : projectPoint o d p = o + distanceToProjectedPoint o d p • d := by
    simp [projectPoint, pointAtDistance, vscale_eq_smul]
  have horth : dot (p - projectPoint o d p) d = 0 := by
    rw [hproj, ← sub_sub, dot_sub_left, dot_smul_left, hd, mul_one]
    exact sub_self _
  have key : ∀ q, OnLine o d q → squaredDistance p q = squaredDistance p (projectPoint o d p) +
      dot (projectPoint o d p - q) (projectPoint o d p - q) := by
    rintro q ⟨t, rfl⟩
    have e : p - (o + t • d) = (p - projectPoint o d p) + (distanceToProjectedPoint o d p - t) • d := by
      rw [hproj, sub_smul]; abel
    have e2 : projectPoint o d p - (o + t • d) = (distanceToProjectedPoint o d p - t) • d := by
      rw [hproj, sub_smul]; abel
    show dot (p - (o + t • d)) (p - (o + t • d)) = dot _ _ + _
    rw [e2, e, dot_add_left, dot_add_right, dot_add_right, dot_smul_right, horth, dot_smul_left,
      dot_comm d, horth, dot_smul_left]
    ring
  refine ⟨hproj, horth, fun q hq => ?_, ?_⟩
  · rw [key q hq]
    refine ⟨le_add_of_nonneg_right (dot_self_nonneg _), fun h => ?_⟩
    have h0 : dot (projectPoint o d p - q) (projectPoint o d p - q) = 0 := by linarith
    exact (sub_eq_zero.1 (dot_self_eq_zero.1 h0)).symm
  · rintro ⟨t, rfl⟩
    rw [hproj]
    have : distanceToProjectedPoint o d (o + t • d) = t := by
      show dot (o + t • d - o) d = t
      rw [add_sub_cancel_left, dot_smul_left, hd, mul_one]
    rw [this]

/-- `point_at_distance` returns the point of the line at the given signed distance from the origin, and
`distance_to_projected_point` recovers that distance. -/
theorem C58_point_at_distance (o d : Vec K S) (hd : dot d d = 1) (t : K) :
    squaredDistance (pointAtDistance o d t) o = t ^ 2 ∧ OnLine o d (pointAtDistance o d t) ∧
    distanceToProjectedPoint o d (pointAtDistance o d t) = t := by
  unfold pointAtDistance
  rw [vscale_eq_smul]
  refine ⟨?_, ⟨t, rfl⟩, ?_⟩
  · show dot (o + t • d - o) (o + t • d - o) = _
    rw [add_sub_cancel_left, dot_smul_left, dot_smul_right, hd]; ring
  · show dot (o + t • d - o) d = t
    rw [add_sub_cancel_left, dot_smul_left, hd, mul_one]

example : projectPoint (![1, 2] : Vec ℚ 2) ![3/5, 4/5] ![1, 7] = ![17/5, 26/5] ∧
    distanceToProjectedPoint (![1, 2] : Vec ℚ 2) ![3/5, 4/5] ![1, 7] = 4 := by decide +kernel

/-- `ray::point_status` tells on which side of the plane through the origin of the ray and orthogonal to its
direction a point lies. -/
theorem C58_ray_status (r : Ray K S) (q : Vec K S) (eps : K) :
    r.pointStatus eps q = (Plane.ofAnchor r.origin r.direction).pointStatus q eps := by
  unfold Ray.pointStatus Plane.pointStatus Plane.pointDistance Plane.ofAnchor
  rw [dot_comm, dot_sub_left]

end C58

/-! ### C78 -/
section C78
variable {S : ℕ}

theorem strip_injective {m : Mat ℝ (S + 1) (S + 1)} (h : IsAffine m) (hdet : (toMatrix m).det ≠ 0) {v : Vec ℝ S}
    (hv : v ≠ 0) : mmulPoint (stripTranslation m) v ≠ 0 := by
  intro h0
  have hz : (toMatrix m).mulVec (Fin.snoc v 0 : Fin (S + 1) → ℝ) = 0 := by
    funext r
    simp only [Matrix.mulVec, dotProduct, toMatrix_apply, Fin.sum_univ_castSucc, Fin.snoc_castSucc,
      Fin.snoc_last, mul_zero, add_zero, Pi.zero_apply]
    refine Fin.lastCases ?_ (fun r => ?_) r
    · refine Finset.sum_eq_zero fun c _ => ?_
      rw [h, if_neg (Fin.castSucc_lt_last c).ne, zero_mul]
    · rw [← strip_apply h, h0, Pi.zero_apply]
  have := Matrix.eq_zero_of_mulVec_eq_zero hdet hz
  apply hv
  funext i
  have := congrFun this i.castSucc
  simpa using this

theorem affine_point {m : Mat ℝ (S + 1) (S + 1)} (h : IsAffine m) (o d : Vec ℝ S) (t : ℝ)
    (hL : mmulPoint (stripTranslation m) d ≠ 0) :
    mmulPoint m (pointAtDistance o d t) = pointAtDistance (mmulPoint m o)
      ((length (mmulPoint (stripTranslation m) d))⁻¹ • mmulPoint (stripTranslation m) d)
      (length (mmulPoint (stripTranslation m) d) * t) := by
  unfold pointAtDistance
  rw [vscale_eq_smul, vscale_eq_smul, affine_add h, strip_smul h, smul_smul]
  have : length (mmulPoint (stripTranslation m) d) * t * (length (mmulPoint (stripTranslation m) d))⁻¹ = t := by
    have := (length_pos hL).ne'
    field_simp
  rw [this]

/-- Transforming a ray by an affine matrix whose linear part preserves lengths maps the point at distance
`t` to the point at distance `t` of the transformed ray; the same holds for lines. -/
theorem C78_rigid (m : Mat ℝ (S + 1) (S + 1)) (hm : IsSimilarity m 1) (r : Ray ℝ S) (l : Line ℝ S)
    (hr : dot r.direction r.direction = 1) (hl : dot l.direction l.direction = 1) :
    (∃ r', r.transform m = some r' ∧ dot r'.direction r'.direction = 1 ∧ ∀ t,
      mmulPoint m (pointAtDistance r.origin r.direction t) = pointAtDistance r'.origin r'.direction t) ∧
    (∃ l', l.transform m = some l' ∧ dot l'.direction l'.direction = 1 ∧ ∀ t,
      mmulPoint m (pointAtDistance l.point l.direction t) = pointAtDistance l'.point l'.direction t) := by
  have key : ∀ d : Vec ℝ S, dot d d = 1 → length (mmulPoint (stripTranslation m) d) = 1 ∧
      mmulPoint (stripTranslation m) d ≠ 0 := by
    intro d hd
    have h1 : length (mmulPoint (stripTranslation m) d) = 1 := by
      rw [length_eq_one_iff, hm.2, hd, mul_one]
    refine ⟨h1, fun h0 => ?_⟩
    rw [h0, length_eq_zero.2 rfl] at h1
    exact zero_ne_one h1
  constructor
  · obtain ⟨h1, h2⟩ := key _ hr
    refine ⟨⟨mmulPoint m r.origin, (length (mmulPoint (stripTranslation m) r.direction))⁻¹ •
      mmulPoint (stripTranslation m) r.direction⟩, ?_, dot_unit h2, fun t => ?_⟩
    · unfold Ray.transform; rw [normalize_of_ne h2]; rfl
    · rw [affine_point hm.1 _ _ _ h2, h1, one_mul]
  · obtain ⟨h1, h2⟩ := key _ hl
    refine ⟨⟨mmulPoint m l.point, (length (mmulPoint (stripTranslation m) l.direction))⁻¹ •
      mmulPoint (stripTranslation m) l.direction⟩, ?_, dot_unit h2, fun t => ?_⟩
    · unfold Line.transform; rw [normalize_of_ne h2]; rfl
    · rw [affine_point hm.1 _ _ _ h2, h1, one_mul]

/-- For every invertible affine matrix, the points of the transformed ray are exactly the images of the points
of the ray. -/
theorem C78_ray_points (m : Mat ℝ (S + 1) (S + 1)) (hm : IsAffine m) (hdet : (toMatrix m).det ≠ 0) (r : Ray ℝ S)
    (hr : r.direction ≠ 0) :
    ∃ r', r.transform m = some r' ∧ dot r'.direction r'.direction = 1 ∧ ∀ q',
      (∃ t : ℝ, 0 ≤ t ∧ q' = pointAtDistance r'.origin r'.direction t) ↔
      ∃ t : ℝ, 0 ≤ t ∧ q' = mmulPoint m (pointAtDistance r.origin r.direction t) := by
  have h2 := strip_injective hm hdet hr
  have hpos := length_pos h2
  refine ⟨⟨mmulPoint m r.origin, (length (mmulPoint (stripTranslation m) r.direction))⁻¹ •
    mmulPoint (stripTranslation m) r.direction⟩, ?_, dot_unit h2, fun q' => ⟨?_, ?_⟩⟩
  · unfold Ray.transform; rw [normalize_of_ne h2]; rfl
  · rintro ⟨t, ht, rfl⟩
    refine ⟨t / length (mmulPoint (stripTranslation m) r.direction), div_nonneg ht hpos.le, ?_⟩
    rw [affine_point hm _ _ _ h2, mul_div_cancel₀ _ hpos.ne']
  · rintro ⟨t, ht, rfl⟩
    exact ⟨_, mul_nonneg hpos.le ht, affine_point hm _ _ _ h2⟩

/-- For every invertible affine matrix, the points of the transformed line are exactly the images of the points
of the line. -/
theorem C78_line_points (m : Mat ℝ (S + 1) (S + 1)) (hm : IsAffine m) (hdet : (toMatrix m).det ≠ 0) (l : Line ℝ S)
    (hl : l.direction ≠ 0) :
    ∃ l', l.transform m = some l' ∧ dot l'.direction l'.direction = 1 ∧ ∀ q',
      (∃ t : ℝ, q' = pointAtDistance l'.point l'.direction t) ↔
      ∃ t : ℝ, q' = mmulPoint m (pointAtDistance l.point l.direction t) := by
  have h2 := strip_injective hm hdet hl
  have hpos := length_pos h2
  refine ⟨⟨mmulPoint m l.point, (length (mmulPoint (stripTranslation m) l.direction))⁻¹ •
    mmulPoint (stripTranslation m) l.direction⟩, ?_, dot_unit h2, fun q' => ⟨?_, ?_⟩⟩
  · unfold Line.transform; rw [normalize_of_ne h2]; rfl
  · rintro ⟨t, rfl⟩
    refine ⟨t / length (mmulPoint (stripTranslation m) l.direction), ?_⟩
    rw [affine_point hm _ _ _ h2, mul_div_cancel₀ _ hpos.ne']
  · rintro ⟨t, rfl⟩
    exact ⟨_, affine_point hm _ _ _ h2⟩

/-- The hypotheses of the theorems above are met by translations (and see the examples after
`C56_fails` for `IsSimilarity`). -/
example (d : Vec ℝ S) : IsAffine (translationMatrix d) ∧ (toMatrix (translationMatrix d)).det ≠ 0 := by
  refine ⟨fun c => ?_, fun h0 => ?_⟩
  · refine Fin.lastCases ?_ (fun c => ?_) c
    · rw [translation_corner, if_pos rfl]
    · rw [translation_cast]
  · have := congrArg (fun m => (toMatrix m).det) (C42_translation d 0 0).2.2
    simp only [toMatrix_mmul, Matrix.det_mul, h0, zero_mul] at this
    rw [toMatrix_id, Matrix.det_one] at this
    exact zero_ne_one this

end C78
end vm
