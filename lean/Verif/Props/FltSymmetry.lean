import Verif.Lemmas.FltSymmetry
import Verif.Lemmas.FltPlanePts
import Verif.Lemmas.FltPolygon
import Verif.Props.FltMat
import Verif.Lemmas.FltQuat

/-! C159: symmetries that survive rounding, and one that does not. -/

set_option linter.unusedSectionVars false
set_option linter.unusedSimpArgs false

namespace vm
open FltSym

/-- Flipping a plane twice gives the same plane; a flipped plane reports exactly the opposite distance and exchanges above and below, for every
point and every epsilon, including infinities and NaN. -/
theorem C159_flip (F : Fmt) {S : ℕ} (p : Plane (Flt F) S) (x : Vec (Flt F) S) (eps : Flt F) :
    p.flip.flip = p ∧ p.flip.pointDistance x = -p.pointDistance x ∧
    (Cmp.lt eps (-eps) = false →
      (p.flip.pointStatus x eps = .above ↔ p.pointStatus x eps = .below) ∧
      (p.flip.pointStatus x eps = .below ↔ p.pointStatus x eps = .above) ∧
      (p.flip.pointStatus x eps = .inside ↔ p.pointStatus x eps = .inside)) := by
  have e1 : p.flip.pointDistance x = -p.pointDistance x := by
    show dot x (-p.normal) - -p.distance = -(dot x p.normal - p.distance)
    rw [(C102_dot_neg F x p.normal).2, neg_sub_neg']
  refine ⟨?_, e1, fun he => ?_⟩
  · show (⟨- -p.distance, - -p.normal⟩ : Plane (Flt F) S) = p
    rw [Flt.neg_neg']
    have : - -p.normal = p.normal := funext fun i => Flt.neg_neg' (p.normal i)
    rw [this]
  · unfold Plane.pointStatus
    simp only [e1]
    generalize p.pointDistance x = d
    have l1 : Cmp.lt eps (-d) = Cmp.lt d (-eps) := by
      conv_lhs => rw [← Flt.neg_neg' eps]
      exact lt_neg_neg (-eps) d
    have l2 : Cmp.lt (-d) (-eps) = Cmp.lt eps d := lt_neg_neg d eps
    rw [l1, l2]
    have ex : Cmp.lt eps d = true → Cmp.lt d (-eps) = true → False := by
      intro a b
      have := lt_trans' a b
      rw [he] at this; cases this
    by_cases h1 : Cmp.lt eps d = true <;> by_cases h2 : Cmp.lt d (-eps) = true
    · exact (ex h1 h2).elim
    all_goals simp [h1, h2]

/-- The side of a plane its normal points to does not matter for projections and intersections: with the flipped plane they give exactly the same
result, or NaN in both cases. -/
theorem C159_flip_same (F : Fmt) {S : ℕ} (p : Plane (Flt F) S) (x v dir : Vec (Flt F) S) (az : Flt F) (r : Ray (Flt F) S) (l : Line (Flt F) S) :
    p.flip.anchor = p.anchor ∧ p.flip.projectPoint x = p.projectPoint x ∧ p.flip.projectVector v = p.projectVector v ∧
    p.flip.projectPointAlong az x dir = p.projectPointAlong az x dir ∧
    p.flip.projectVectorAlong az v dir = p.projectVectorAlong az v dir ∧
    intersectRayPlane az r p.flip = intersectRayPlane az r p ∧ intersectLinePlane az l p.flip = intersectLinePlane az l p := by
  have e0 : p.flip.anchor = p.anchor := scale_neg p.normal p.distance
  have e1 : ∀ x, p.flip.projectPoint x = p.projectPoint x := by
    intro x
    show x - vscale (-p.normal) (dot x (-p.normal)) + vscale (-p.normal) (-p.distance) = _
    rw [(C102_dot_neg F x p.normal).2, scale_neg, scale_neg]
    rfl
  have key : ∀ (w d : Vec (Flt F) S), isZero (dot d p.normal) az ≠ true →
      dot (vscale (-p.normal) (-p.distance) - w) (-p.normal) / dot d (-p.normal) = dot (vscale p.normal p.distance - w) p.normal / dot d p.normal := by
    intro w d h
    rw [scale_neg, (C102_dot_neg F _ p.normal).2, (C102_dot_neg F d p.normal).2, neg_div_neg' _ (ne_zero h)]
  have z : ∀ d : Vec (Flt F) S, isZero (dot d (-p.normal)) az = isZero (dot d p.normal) az := fun d => by
    rw [(C102_dot_neg F d p.normal).2, isZero_neg]
  have e2 : ∀ x, p.flip.projectPointAlong az x dir = p.projectPointAlong az x dir := by
    intro x
    unfold Plane.projectPointAlong Plane.flip
    simp only
    rw [z]
    by_cases h : isZero (dot dir p.normal) az = true
    · rw [if_pos h, if_pos h]
    · rw [if_neg h, if_neg h, key x dir h]
  refine ⟨e0, e1 x, ?_, e2 x, ?_, ?_, ?_⟩
  · unfold Plane.projectVector
    rw [e1, e0]
  · unfold Plane.projectVectorAlong
    rw [e2, e0]
  · unfold intersectRayPlane
    simp only [e0]
    show (if isZero (dot r.direction (-p.normal)) az = true then _ else _) = _
    rw [z]
    by_cases h : isZero (dot r.direction p.normal) az = true
    · rw [if_pos h, if_pos h]
    · rw [if_neg h, if_neg h]
      have := key r.origin r.direction h
      rw [scale_neg] at this
      show (if Cmp.lt (dot (p.anchor - r.origin) (-p.normal) / dot r.direction (-p.normal)) (-az) = true then _ else
        some (dot (p.anchor - r.origin) (-p.normal) / dot r.direction (-p.normal))) = _
      unfold Plane.anchor
      rw [this]
  · unfold intersectLinePlane Plane.flip
    simp only
    rw [z]
    by_cases h : isZero (dot l.direction p.normal) az = true
    · rw [if_pos h, if_pos h]
    · rw [if_neg h, if_neg h, key l.point l.direction h]

/-- Exchanging the second and the third point gives exactly the flipped plane, and the construction succeeds or fails in both cases, whatever the
square root function. -/
theorem C159_from_points (F : Fmt) (s : Flt F → Flt F) (inf eps : Flt F) (p1 p2 p3 : Vec (Flt F) 3) :
    (Plane.fromPointsG s inf p1 p3 p2 eps).1 = (Plane.fromPointsG s inf p1 p2 p3 eps).1 ∧
    (Plane.fromPointsG s inf p1 p3 p2 eps).2 = (Plane.fromPointsG s inf p1 p2 p3 eps).2.flip := by
  have e1 : (Plane.planeNormalG s inf p1 p3 p2 eps).1 = (Plane.planeNormalG s inf p1 p2 p3 eps).1 ∧
      (Plane.planeNormalG s inf p1 p3 p2 eps).2 = -(Plane.planeNormalG s inf p1 p2 p3 eps).2 := by
    unfold Plane.planeNormalG
    simp only
    rw [cross_swap (p3 - p1) (p2 - p1)]
    have l : ∀ v : Vec (Flt F) 3, lengthG s (-v) = lengthG s v := fun v => congrArg s (squaredLength_neg v)
    rw [l, Flt.mul_comm' (lengthG s (p2 - p1))]
    split_ifs
    · exact ⟨rfl, funext fun _ => neg_zero'.symm⟩
    · refine ⟨rfl, ?_⟩
      unfold normalizeG
      rw [l]
      exact funext fun i => neg_div' _ _
  unfold Plane.fromPointsG
  simp only
  rw [e1.1]
  split_ifs
  · refine ⟨rfl, ?_⟩
    show _ = (⟨-0, -fun _ => 0⟩ : Plane (Flt F) 3)
    have : (-fun _ => 0 : Vec (Flt F) 3) = fun _ => 0 := funext fun _ => neg_zero'
    rw [neg_zero', this]
    rfl
  · refine ⟨rfl, ?_⟩
    rw [e1.2]
    show (⟨dot p1 (-_), -_⟩ : Plane (Flt F) 3) = ⟨-dot p1 _, -_⟩
    rw [(C102_dot_neg F p1 _).2]
    rfl

/-- Reflecting everything through the origin changes no distance: rays hit planes, spheres and triangles at exactly the same distance. -/
theorem C159_reflect (F : Fmt) {S : ℕ} (az : Flt F) (r : Ray (Flt F) S) (p : Plane (Flt F) S) (s : Flt F → Flt F) (c : Vec (Flt F) S) (radius : Flt F)
    (r3 : Ray (Flt F) 3) (p1 p2 p3 : Vec (Flt F) 3) :
    intersectRayPlane az ⟨-r.origin, -r.direction⟩ ⟨p.distance, -p.normal⟩ = intersectRayPlane az r p ∧
    intersectRaySphereG s Flt.nan ⟨-r.origin, -r.direction⟩ (-c) radius = intersectRaySphereG s Flt.nan r c radius ∧
    intersectRayTriangle az ⟨-r3.origin, -r3.direction⟩ (-p1) (-p2) (-p3) = intersectRayTriangle az r3 p1 p2 p3 := by
  refine ⟨?_, ?_, ?_⟩
  · unfold intersectRayPlane Plane.anchor
    simp only
    rw [scale_neg_left, vneg_sub, dot_neg_neg, dot_neg_neg]
  · unfold intersectRaySphereG
    simp only
    rw [vneg_sub, dot_neg_neg, squaredLength_neg]
  · unfold intersectRayTriangle
    simp only
    rw [vneg_sub, vneg_sub, vneg_sub, cross_neg_neg, cross_neg_neg, (C102_dot_neg F _ (p2 - p1)).2, (C102_dot_neg F _ (p3 - p1)).2,
      (C102_dot_neg F _ (r3.origin - p1)).2, (C102_dot_neg F _ r3.direction).2, isZero_neg]
    by_cases h : isZero (dot (cross r3.direction (p3 - p1)) (p2 - p1)) az = true
    · rw [if_pos h, if_pos h]
    · rw [if_neg h, if_neg h, neg_div_neg' _ (ne_zero h), neg_div_neg' _ (ne_zero h), neg_div_neg' _ (ne_zero h)]

/-- The sum in a dot product is taken from the first component to the last, so the length of a vector is not symmetric in the components: the
rotation by 90 degrees about the x axis, which moves the components exactly, changes the squared length from 1 to the next larger number. -/
theorem C159_rotate_fails (P : BinPar) (hP : P = binary32 ∨ P = binary64) : ∃ p : Vec (Flt P.fmt) 3, (∀ i, (p i).isFinite) ∧
    (squaredLength p).isFinite ∧ (squaredLength (mmulPoint rot90XCw p)).isFinite ∧ (squaredLength p).val = 1 ∧
    (squaredLength (mmulPoint rot90XCw p)).val = 1 + 2 * P.u := by
  have key : ∀ x : Flt P.fmt, x.isFinite → ∀ a b : ℚ, (x * x).isFinite ∧ (x * x).val = a → (x * x + 1).isFinite ∧ (x * x + 1).val = 1 →
      (1 + x * x).isFinite ∧ (1 + x * x).val = 1 → (x * x + x * x).isFinite ∧ (x * x + x * x).val = b →
      (x * x + x * x + 1).isFinite ∧ (x * x + x * x + 1).val = 1 + 2 * P.u →
      ∃ p : Vec (Flt P.fmt) 3, (∀ i, (p i).isFinite) ∧ (squaredLength p).isFinite ∧ (squaredLength (mmulPoint rot90XCw p)).isFinite ∧
        (squaredLength p).val = 1 ∧ (squaredLength (mmulPoint rot90XCw p)).val = 1 + 2 * P.u := by
    intro x hx a b h1 h2 h3 h4 h5
    have hp : ∀ i, ((![x, 1, x] : Vec (Flt P.fmt) 3) i).isFinite := by
      intro i
      fin_cases i
      · exact hx
      · exact Flt.one_finite
      · exact hx
    have e1 : squaredLength (![x, 1, x] : Vec (Flt P.fmt) 3) = 1 + x * x := by
      unfold squaredLength
      rw [FltQt.dot3]
      show x * x + 1 * 1 + x * x = _
      rw [Flt.one_mul']
      congr 1
      exact Flt.ext h2.1 Flt.one_finite (by rw [h2.2, Flt.one_val])
    have e2 : squaredLength (mmulPoint rot90XCw (![x, 1, x] : Vec (Flt P.fmt) 3)) = x * x + x * x + 1 := by
      rw [(C103_constants P.fmt _ hp).1]
      unfold squaredLength
      rw [FltQt.dot3]
      show x * x + x * x + -1 * -1 = _
      rw [neg_mul_neg', Flt.one_mul']
    exact ⟨_, hp, by rw [e1]; exact h3.1, by rw [e2]; exact h5.1, by rw [e1]; exact h3.2, by rw [e2]; exact h5.2⟩
  have one : (1 : Flt P.fmt).isFinite ∧ (1 : Flt P.fmt).val = 1 := ⟨Flt.one_finite, Flt.one_val⟩
  rcases hP with rfl | rfl
  · have hx := is_round (P := binary32) (q := 1 / 2 ^ 12) (c := 1 / 2 ^ 12) (by fl_num (-35) (8388608)) (lt_bound32 (by norm_num))
    have xx := is_mul (c := 1 / 2 ^ 24) hx hx (by fl_num (-47) (8388608)) (lt_bound32 (by norm_num))
    have x1 := is_add (c := 1) xx one (by fl_tie (-23) (8388608)) (lt_bound32 (by norm_num))
    have y1 := is_add (c := 1) one xx (by fl_tie (-23) (8388608)) (lt_bound32 (by norm_num))
    have x2 := is_add (c := 1 / 2 ^ 23) xx xx (by fl_num (-46) (8388608)) (lt_bound32 (by norm_num))
    have x3 := is_add (c := 1 + 1 / 2 ^ 23) x2 one (by fl_num (-23) (8388609)) (lt_bound32 (by norm_num))
    refine key _ hx.1 _ _ xx x1 y1 x2 ⟨x3.1, ?_⟩
    rw [x3.2]
    norm_num [BinPar.u, binary32]
  · have hx := is_round (P := binary64) (q := 11 / 2 ^ 30) (c := 11 / 2 ^ 30) (by fl_num (-79) (11 * 2 ^ 49)) (lt_bound64 (by norm_num))
    have xx := is_mul (c := 121 / 2 ^ 60) hx hx (by fl_num (-106) (121 * 2 ^ 46)) (lt_bound64 (by norm_num))
    have x1 := is_add (c := 1) xx one (by fl_num (-52) (2 ^ 52)) (lt_bound64 (by norm_num))
    have y1 := is_add (c := 1) one xx (by fl_num (-52) (2 ^ 52)) (lt_bound64 (by norm_num))
    have x2 := is_add (c := 121 / 2 ^ 59) xx xx (by fl_num (-105) (121 * 2 ^ 46)) (lt_bound64 (by norm_num))
    have x3 := is_add (c := 1 + 1 / 2 ^ 52) x2 one (by fl_num (-52) (2 ^ 52 + 1)) (lt_bound64 (by norm_num))
    refine key _ hx.1 _ _ xx x1 y1 x2 ⟨x3.1, ?_⟩
    rw [x3.2]
    norm_num [BinPar.u, binary64]

/-- The hypothesis of `C159_flip` on the epsilon holds for zero, and statuses other than `inside` occur: a point above a plane is below the flipped
plane. -/
example (P : BinPar) : let p : Plane (Flt P.fmt) 3 := ⟨0, ![0, 0, 1]⟩
    Cmp.lt (0 : Flt P.fmt) (-0) = false ∧ p.pointStatus ![0, 0, 1] 0 = .above ∧ p.flip.pointStatus ![0, 0, 1] 0 = .below := by
  intro p
  have h0 : Cmp.lt (0 : Flt P.fmt) (-0) = false := by
    rw [neg_zero']
    show decide (Ext.ofRat 0 < Ext.ofRat 0) = false
    simp
  have h1 : p.pointStatus ![0, 0, 1] 0 = .above := by
    have e : p.pointDistance ![0, 0, 1] = 1 := by
      show dot (![0, 0, 1] : Vec (Flt P.fmt) 3) ![0, 0, 1] - 0 = 1
      rw [FltQt.dot3]
      show (0 : Flt P.fmt) * 0 + 0 * 0 + 1 * 1 - 0 = 1
      rw [Flt.one_mul', Flt.zero_mul_fin Flt.zero_finite, Flt.zero_add', Flt.zero_add', Flt.sub_zero']
    unfold Plane.pointStatus
    simp only [e]
    have : Cmp.lt (0 : Flt P.fmt) 1 = true := by
      show decide (Ext.ofRat 0 < Ext.ofRat 1) = true
      simp [Ext.ofRat]
    rw [if_pos this]
  exact ⟨h0, h1, ((C159_flip P.fmt p ![0, 0, 1] 0).2.2 h0).2.1.2 h1⟩

/-- A hit for `C159_flip_same` and `C159_reflect`: the ray along the z axis hits the plane through the origin at distance zero. -/
example (P : BinPar) : intersectRayPlane 0 ⟨![0, 0, 0], ![0, 0, 1]⟩ (⟨0, ![0, 0, 1]⟩ : Plane (Flt P.fmt) 3).flip = some 0 := by
  rw [(C159_flip_same P.fmt _ ![0, 0, 0] ![0, 0, 0] ![0, 0, 1] 0 ⟨![0, 0, 0], ![0, 0, 1]⟩ ⟨![0, 0, 0], ![0, 0, 1]⟩).2.2.2.2.2.1]
  have h : isZero (1 : Flt P.fmt) 0 = false := by
    rw [isZero_flt Flt.one_finite Flt.zero_finite (by rw [Flt.zero_val]), Flt.one_val, Flt.zero_val]
    simp
  have ha : Cmp.lt (0 : Flt P.fmt) (-0) = false := by
    rw [neg_zero']
    show decide (Ext.ofRat 0 < Ext.ofRat 0) = false
    simp
  have zz : (0 : Flt P.fmt) * 0 = 0 := Flt.zero_mul_fin Flt.zero_finite
  have z1 : (0 : Flt P.fmt) * 1 = 0 := Flt.zero_mul_fin Flt.one_finite
  have z2 : (1 : Flt P.fmt) * 0 = 0 := Flt.mul_zero_fin Flt.one_finite
  have d : dot (![0, 0, 1] : Vec (Flt P.fmt) 3) ![0, 0, 1] = 1 := by
    rw [FltQt.dot3]
    show (0 : Flt P.fmt) * 0 + 0 * 0 + 1 * 1 = 1
    rw [Flt.one_mul', zz, Flt.zero_add', Flt.zero_add']
  have n : dot (Plane.anchor (⟨0, ![0, 0, 1]⟩ : Plane (Flt P.fmt) 3) - ![0, 0, 0]) ![0, 0, 1] = 0 := by
    rw [FltQt.dot3]
    show ((0 : Flt P.fmt) * 0 - 0) * 0 + (0 * 0 - 0) * 0 + (1 * 0 - 0) * 1 = 0
    rw [zz, z2, Flt.sub_zero', zz, z1, Flt.zero_add', Flt.zero_add']
  unfold intersectRayPlane
  simp only [d, n, h, Flt.div_one']
  rw [ha]
  rfl

end vm
