import Verif.Props.SFltHull
import Verif.Model.DistanceG
import Verif.Model.SegmentG
import Verif.Model.RaySegmentG
import Verif.Model.PlanePlaneG
import Verif.Model.PlaneProjG

set_option linter.unusedSectionVars false
set_option linter.unusedSimpArgs false

/-! C117, continued: points in homogeneous coordinates, transformations, segments, two planes and projections. -/

namespace vm

open SFlt

variable {P : BinPar} {S : ℕ}

namespace SFlt

/-- A segment with the map applied to its components. -/
def smap {A B : Type} (φ : A → B) (s : Segment A S) : Segment B S := ⟨vmap φ s.start, vmap φ s.end_⟩

/-- A distance with the map applied to its components. -/
def pdmap {A B : Type} (φ : A → B) (d : PointDistance A) : PointDistance B := ⟨φ d.position, d.distance.map φ⟩

theorem sqrtS_toFlt {s : Flt P.fmt → Flt P.fmt} (s0 : s 0 = 0) (x : SFlt P.fmt) : (sqrtS s x).toFlt = s x.toFlt := by
  rcases x with _ | x
  · exact s0.symm
  · rfl

theorem mmulPoint_toFlt (m : Mat (SFlt P.fmt) (S + 1) (S + 1)) (v : Vec (SFlt P.fmt) S) :
    vmap toFlt (mmulPoint m v) = mmulPoint (mmap toFlt m) (vmap toFlt v) := by
  have hh : vmap toFlt (toHomogeneous v) = toHomogeneous (vmap toFlt v) := by
    funext i
    unfold toHomogeneous vmap
    refine Fin.lastCases ?_ (fun j => ?_) i
    · rw [Fin.snoc_last, Fin.snoc_last]; rfl
    · rw [Fin.snoc_castSucc, Fin.snoc_castSucc]
  unfold mmulPoint toCartesian
  rw [← hh, ← hom.mmulVec]
  funext i
  exact div_of_ne_negZero _ _ (dot_ne_negZero (fun c => m c (Fin.last S)) (toHomogeneous v))

theorem stripTranslation_toFlt (m : Mat (SFlt P.fmt) (S + 1) (S + 1)) : mmap toFlt (stripTranslation m) = stripTranslation (mmap toFlt m) := by
  unfold stripTranslation
  have : ∀ (n : ℕ) (h : n ≤ S) (m : Mat (SFlt P.fmt) (S + 1) (S + 1)),
      mmap toFlt (Fin.foldl n (fun result i => mset result (Fin.castLE h i).castSucc (Fin.last S) 0) m) =
        Fin.foldl n (fun result i => mset result (Fin.castLE h i).castSucc (Fin.last S) 0) (mmap toFlt m) := by
    intro n
    induction n with
    | zero => intro h m; simp only [Fin.foldl_zero]
    | succ n ih =>
      intro h m
      rw [Fin.foldl_succ_last, Fin.foldl_succ_last, Hom.mset, hom.zero]
      congr 1
      exact ih (by omega) m
  exact this S le_rfl m

theorem directionG_toFlt (q : Flt P.fmt → Flt P.fmt) (s : Segment (SFlt P.fmt) S) :
    vmap toFlt (s.directionG (sqrtS q)) = (smap toFlt s).directionG q := by
  unfold Segment.directionG smap
  rw [normalizeG_toFlt, hom.vsub]

end SFlt

/-- Points in homogeneous coordinates and the transformations of points, lines, rays and planes: the last coordinate of a product is never `-0`, so the
results are the same up to the signs of zeros. -/
theorem C117_transform (q : Flt P.fmt → Flt P.fmt) (m : Mat (SFlt P.fmt) (S + 1) (S + 1)) (v : Vec (SFlt P.fmt) S) (l : Line (SFlt P.fmt) S)
    (r : Ray (SFlt P.fmt) S) (p : Plane (SFlt P.fmt) S) :
    vmap toFlt (mmulPoint m v) = mmulPoint (mmap toFlt m) (vmap toFlt v) ∧
    mmulVec m (toHomogeneous v) (Fin.last S) ≠ negZero ∧
    lmap toFlt (l.transformG (sqrtS q) m) = (lmap toFlt l).transformG q (mmap toFlt m) ∧
    rmap toFlt (r.transformG (sqrtS q) m) = (rmap toFlt r).transformG q (mmap toFlt m) ∧
    pmap toFlt (p.transformG (sqrtS q) m) = (pmap toFlt p).transformG q (mmap toFlt m) := by
  refine ⟨mmulPoint_toFlt m v, dot_ne_negZero (fun c => m c (Fin.last S)) (toHomogeneous v), ?_, ?_, ?_⟩
  · unfold Line.transformG lmap
    dsimp only
    rw [mmulPoint_toFlt, normalizeG_toFlt, mmulPoint_toFlt, stripTranslation_toFlt]
  · unfold Ray.transformG rmap
    dsimp only
    rw [mmulPoint_toFlt, normalizeG_toFlt, mmulPoint_toFlt, stripTranslation_toFlt]
  · unfold Plane.transformG Plane.ofAnchor
    rw [← hom.anchor, ← mmulPoint_toFlt, ← stripTranslation_toFlt]
    unfold pmap
    dsimp only
    rw [hom.dot, normalizeG_toFlt, mmulPoint_toFlt, mmulPoint_toFlt]

/-- Segments: `contains`, the distances to points, and `is_between`; a degenerate segment gives NaN with both zeros. -/
theorem C117_segment {q : Flt P.fmt → Flt P.fmt} (q0 : q 0 = 0) (s : Segment (SFlt P.fmt) S) (v a b : Vec (SFlt P.fmt) S) (d : SFlt P.fmt)
    (r : Ray (SFlt P.fmt) S) :
    vmap toFlt (s.directionG (sqrtS q)) = (smap toFlt s).directionG q ∧
    s.containsG (sqrtS q) v d = (smap toFlt s).containsG q (vmap toFlt v) d.toFlt ∧
    pdmap toFlt (squaredDistanceSegmentPointG (sqrtS q) s v) = squaredDistanceSegmentPointG q (smap toFlt s) (vmap toFlt v) ∧
    pdmap toFlt (distanceSegmentPointG (sqrtS q) s v) = distanceSegmentPointG q (smap toFlt s) (vmap toFlt v) ∧
    pdmap toFlt (distanceRayPointG (sqrtS q) r v) = distanceRayPointG q (rmap toFlt r) (vmap toFlt v) ∧
    isBetweenG (sqrtS q) v a b = isBetweenG q (vmap toFlt v) (vmap toFlt a) (vmap toFlt b) := by
  have hmap : ∀ o : Option (SFlt P.fmt), (o.map (sqrtS q)).map toFlt = (o.map toFlt).map q := by
    intro o
    cases o
    · rfl
    · exact congrArg some (sqrtS_toFlt q0 _)
  have h3 : pdmap toFlt (squaredDistanceSegmentPointG (sqrtS q) s v) = squaredDistanceSegmentPointG q (smap toFlt s) (vmap toFlt v) := by
    have hv : vdivs (vmap toFlt (s.end_ - s.start)) (lengthG q (vmap toFlt (s.end_ - s.start))) =
        vmap toFlt (vdivs (s.end_ - s.start) (lengthG (sqrtS q) (s.end_ - s.start))) := (normalizeG_toFlt q (s.end_ - s.start)).symm
    have hm : ∀ x y : SFlt P.fmt, vmin (vmax (0 : Flt P.fmt) [x.toFlt]) [y.toFlt] = (vmin (vmax 0 [x]) [y]).toFlt := by
      intro x y
      rw [hom.vmin, hom.vmax]
      rfl
    unfold squaredDistanceSegmentPointG
    dsimp only
    rw [← directionG_toFlt]
    show _ = PointDistance.mk (vmin (vmax 0 [dot (vmap toFlt v - vmap toFlt s.start) (vdivs (vmap toFlt s.end_ - vmap toFlt s.start)
      (lengthG q (vmap toFlt s.end_ - vmap toFlt s.start)))]) [lengthG q (vmap toFlt s.end_ - vmap toFlt s.start)])
      (some (squaredLength (vmap toFlt v - pointAtDistance (vmap toFlt s.start) _ (vmin (vmax 0 [dot (vmap toFlt v - vmap toFlt s.start)
        (vdivs (vmap toFlt s.end_ - vmap toFlt s.start) (lengthG q (vmap toFlt s.end_ - vmap toFlt s.start)))])
        [lengthG q (vmap toFlt s.end_ - vmap toFlt s.start)]))))
    rw [← hom.vsub s.end_, hv, ← hom.vsub v, ← hom.dot, ← (lengthG_toFlt q (s.end_ - s.start)).2, hm, ← hom.pointAtDistance, ← hom.vsub, ← hom.squaredLength]
    rfl
  refine ⟨directionG_toFlt q s, ?_, h3, ?_, ?_, ?_⟩
  · unfold Segment.containsG
    dsimp only
    rw [← directionG_toFlt]
    show _ = if (Cmp.lt (distanceToProjectedPoint (vmap toFlt s.start) _ _) _ ||
      Cmp.lt (squaredLength (vmap toFlt s.end_ - vmap toFlt s.start) + _) (distanceToProjectedPoint (vmap toFlt s.start) _ _ *
        distanceToProjectedPoint (vmap toFlt s.start) _ _)) then _ else
      Cmp.le (squaredDistance (pointAtDistance (vmap toFlt s.start) _ (distanceToProjectedPoint (vmap toFlt s.start) _ _)) _) _
    rw [← hom.distanceToProjectedPoint, ← hom.neg, hom.lt, ← hom.vsub, ← hom.squaredLength, ← hom.mul, ← hom.mul, ← hom.add, hom.lt, ← hom.pointAtDistance,
      ← hom.squaredDistance, hom.le]
    rfl
  · unfold distanceSegmentPointG
    dsimp only
    rw [← h3]
    unfold pdmap
    dsimp only
    rw [hmap]
  · unfold distanceRayPointG
    dsimp only
    rw [hom.squaredDistanceRayPoint]
    unfold pdmap
    dsimp only
    rw [hmap]
  · have hv : ∀ x y : Vec (SFlt P.fmt) S, veq (vmap toFlt x) (vmap toFlt y) = veq x y := by
      intro x y
      unfold veq
      rw [← hom.zero, hom.vcompare]
    unfold isBetweenG
    dsimp only
    rw [hv, hv, ← hom.vsub, ← hom.vsub, ← normalizeG_toFlt, ← hom.dot, hom.lt0]

/-- `intersect_plane_plane`, `coordinate_system_matrix` and `plane_projection_matrix`: the same results up to the signs of zeros, and failure in the same
cases. -/
theorem C117_planes (q : Flt P.fmt → Flt P.fmt) (az qnan : SFlt P.fmt) (p1 p2 : Plane (SFlt P.fmt) 3) (x y z o : Vec (SFlt P.fmt) 3) (d : SFlt P.fmt)
    (junk : ℕ → SFlt P.fmt × ℕ) :
    lmap toFlt (intersectPlanePlaneG (sqrtS q) az qnan p1 p2) = intersectPlanePlaneG q az.toFlt qnan.toFlt (pmap toFlt p1) (pmap toFlt p2) ∧
    (coordinateSystemMatrixG x y z o).map (mmap toFlt) = coordinateSystemMatrixG (vmap toFlt x) (vmap toFlt y) (vmap toFlt z) (vmap toFlt o) ∧
    (planeProjectionMatrixG (sqrtS q) az junk d x y).map (mmap toFlt) =
      planeProjectionMatrixG q az.toFlt (fun i => ((junk i).1.toFlt, (junk i).2)) d.toFlt (vmap toFlt x) (vmap toFlt y) := by
  have hc : ∀ x y z o : Vec (SFlt P.fmt) 3, (coordinateSystemMatrixG x y z o).map (mmap toFlt) =
      coordinateSystemMatrixG (vmap toFlt x) (vmap toFlt y) (vmap toFlt z) (vmap toFlt o) := by
    intro x y z o
    unfold coordinateSystemMatrixG
    dsimp only
    have h := (SFlt.hom (F := P.fmt)).invert small_zero_toFlt (fun _ => rfl) small_ne_zero
      (matOfRowMajor 4 4 ![x 0, y 0, z 0, o 0, x 1, y 1, z 1, o 1, x 2, y 2, z 2, o 2, 0, 0, 0, 1])
    rw [rowMajor4, hom.zero, hom.one] at h
    unfold vmap
    rw [h]
    dsimp only
    split <;> rfl
  refine ⟨?_, hc x y z o, ?_⟩
  · have l0 : lmap toFlt (⟨0, 0⟩ : Line (SFlt P.fmt) 3) = ⟨0, 0⟩ := by
      unfold lmap
      dsimp only
      rw [hom.vzero]
    have hp : ∀ (p : Plane (SFlt P.fmt) 3) (v : Vec (SFlt P.fmt) 3), vmap toFlt (p.projectVector v) = (pmap toFlt p).projectVector (vmap toFlt v) := by
      intro p v
      unfold Plane.projectVector
      rw [hom.vsub, hom.planeProject, hom.vadd, hom.anchor]
    unfold intersectPlanePlaneG
    dsimp only
    have e1 : normalizeG q (cross (pmap toFlt p1).normal (pmap toFlt p2).normal) = vmap toFlt (normalizeG (sqrtS q) (cross p1.normal p2.normal)) := by
      rw [normalizeG_toFlt, hom.cross]
      rfl
    have e2 : normalizeG q ((pmap toFlt p1).projectVector (pmap toFlt p2).normal) = vmap toFlt (normalizeG (sqrtS q) (p1.projectVector p2.normal)) := by
      rw [normalizeG_toFlt, hp]
      rfl
    have e3 := (SFlt.hom (F := P.fmt)).intersectLinePlane az ⟨p1.anchor, normalizeG (sqrtS q) (p1.projectVector p2.normal)⟩ p2
    have e4 : pointAtDistance (vmap toFlt p1.anchor) (vmap toFlt (normalizeG (sqrtS q) (p1.projectVector p2.normal)))
        ((intersectLinePlane az.toFlt ⟨vmap toFlt p1.anchor, vmap toFlt (normalizeG (sqrtS q) (p1.projectVector p2.normal))⟩ (pmap toFlt p2)).getD qnan.toFlt) =
        vmap toFlt (pointAtDistance p1.anchor (normalizeG (sqrtS q) (p1.projectVector p2.normal))
          ((intersectLinePlane az ⟨p1.anchor, normalizeG (sqrtS q) (p1.projectVector p2.normal)⟩ p2).getD qnan)) := by
      rw [hom.pointAtDistance]
      congr 1
      rw [show intersectLinePlane az.toFlt (⟨vmap toFlt p1.anchor, vmap toFlt (normalizeG (sqrtS q) (p1.projectVector p2.normal))⟩ : Line (Flt P.fmt) 3)
        (pmap toFlt p2) = _ from e3.symm]
      cases intersectLinePlane az (⟨p1.anchor, normalizeG (sqrtS q) (p1.projectVector p2.normal)⟩ : Line (SFlt P.fmt) 3) p2 <;> rfl
    rw [e1, e2, hom.visNan, ← hom.anchor, e4, hom.visNan, ← l0]
    split
    · rfl
    · split <;> rfl
  · have hu : ∀ v : Vec (SFlt P.fmt) 3, isUnitG q (vmap toFlt v) az.toFlt = isUnitG (sqrtS q) v az := by
      intro v
      unfold isUnitG
      rw [← (lengthG_toFlt q v).2, ← hom.one, hom.isEqual]
    have ha : planeAxis (fun i => ((junk i).1.toFlt, (junk i).2)) (vmap toFlt x) = vmap toFlt (planeAxis junk x) := by
      unfold planeAxis
      rw [(C117_select x 0 junk).2, ← vaxis_toFlt, ← vaxis_toFlt, ← hom.cross, ← hom.cross]
      split <;> rfl
    unfold planeProjectionMatrixG
    dsimp only
    rw [ha, ← normalizeG_toFlt, ← hom.cross, ← normalizeG_toFlt, hu, hu, hu, ← hom.vscale, ← hc]
    split <;> rfl

/-- The distance of a ray and a segment. -/
theorem C117_ray_segment {q : Flt P.fmt → Flt P.fmt} (q0 : q 0 = 0) (az : SFlt P.fmt) (r : Ray (SFlt P.fmt) S) (s : Segment (SFlt P.fmt) S) :
    ldmap toFlt (squaredDistanceRaySegmentG (sqrtS q) az r s) = squaredDistanceRaySegmentG q az.toFlt (rmap toFlt r) (smap toFlt s) ∧
    ldmap toFlt (distanceRaySegmentG (sqrtS q) az r s) = distanceRaySegmentG q az.toFlt (rmap toFlt r) (smap toFlt s) := by
  have h : ldmap toFlt (squaredDistanceRaySegmentG (sqrtS q) az r s) = squaredDistanceRaySegmentG q az.toFlt (rmap toFlt r) (smap toFlt s) := by
    have hom := SFlt.hom (F := P.fmt)
    unfold squaredDistanceRaySegmentG
    simp only [← directionG_toFlt]
    simp only [rmap, smap, ← hom.vsub, ← hom.dot, ← hom.mul, ← hom.sub, hom.isZero, ← hom.distanceToProjectedPoint, hom.lt0, hom.lt0', hom.lt,
      ← hom.squaredDistance, ← hom.pointAtDistance, ← sqrtS_toFlt q0, ← hom.add]
    split
    · split
      · split <;> simp only [ldmap, Option.map_some, hom.zero]
      · split
        · split <;> simp only [ldmap, Option.map_some, hom.zero]
        · simp only [ldmap, Option.map_some, hom.zero]
    · next hz =>
        have hz := Hom.ne_zero _ _ (Bool.not_eq_true _ ▸ hz)
        have hd := fun x => div_of_ne_negZero x _ (dot_ne_negZero r.direction r.direction)
        have hm : ∀ x : SFlt P.fmt, vmax x.toFlt [toFlt (0 : SFlt P.fmt)] = (vmax x [0]).toFlt := fun x => (hom.vmax [0] x).symm
        have i0 : isZero (0 : Flt P.fmt) az.toFlt = isZero (0 : SFlt P.fmt) az := hom.isZero 0 az
        generalize hD : dot (s.end_ - s.start) (s.end_ - s.start) * dot r.direction r.direction -
          dot (s.end_ - s.start) r.direction * dot (s.end_ - s.start) r.direction = D at hz ⊢
        generalize dot (s.end_ - s.start) r.direction * dot r.direction (s.start - r.origin) -
          dot r.direction r.direction * dot (s.end_ - s.start) (s.start - r.origin) = sN
        cases Cmp.lt sN 0
        · cases Cmp.lt D sN
          · simp only [Bool.false_eq_true, if_false, hom.isZero, ← hom.div _ _ hz]
            split_ifs <;>
            simp only [ldmap, Option.map_some, hm, ← hom.zero, ← hom.vscale, ← hom.vadd, ← hom.vsub, ← hom.squaredLength, ← hom.mul]
          · simp only [Bool.false_eq_true, if_false, if_true, hom.isZero, ← hom.div _ _ hz, ← hd]
            split_ifs <;>
            simp only [ldmap, Option.map_some, hm, ← hom.zero, ← hom.vscale, ← hom.vadd, ← hom.vsub, ← hom.squaredLength, ← hom.mul]
        · simp only [if_true, hom.isZero, i0, ← hom.div _ _ hz, ← hd]
          split_ifs <;>
          simp only [ldmap, Option.map_some, hm, ← hom.zero, ← hom.div _ _ hz, ← hom.vscale, ← hom.vadd, ← hom.vsub, ← hom.squaredLength, ← hom.mul]
  refine ⟨h, ?_⟩
  unfold distanceRaySegmentG
  dsimp only
  rw [← h]
  unfold ldmap
  dsimp only
  rw [sqrtS_toFlt q0]

/-- The condition of C117_segment and C117_ray_segment holds for `std::sqrt`. -/
example : ∃ s : Flt binary32.fmt → Flt binary32.fmt, CorrectSqrt binary32 s ∧ s 0 = 0 := by
  obtain ⟨s, hs⟩ := exists_correctSqrt binary32
  refine ⟨s, hs, ?_⟩
  obtain ⟨r, hr, h3, h4⟩ := hs.faithful.fin 0 binary32.fmt.rep_zero (le_refl 0)
  obtain ⟨h0, h5⟩ := h4
  have r0 : r = 0 := by
    by_contra hne
    have := (h5 0 binary32.fmt.rep_zero (le_refl 0)).1 (lt_of_le_of_ne h0 (Ne.symm hne))
    norm_num at this
  subst r0
  exact h3

end vm
