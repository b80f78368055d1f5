import Verif.Props.SFltScale
import Verif.Props.SFltSign
import Verif.Model.Perspective

set_option linter.unusedSectionVars false
set_option linter.unusedSimpArgs false

/-! C117, continued: shearings, the view matrix and the perspective projection. -/

namespace vm

open SFlt

variable {P : BinPar} {S : ℕ}

namespace SFlt

theorem veq_toFlt (a b : Vec (SFlt P.fmt) S) : veq (vmap toFlt a) (vmap toFlt b) = veq a b := by
  unfold veq
  rw [← hom.zero, hom.vcompare]

theorem shearMatrix_toFlt (a b c d e f : SFlt P.fmt) :
    mmap toFlt (shearMatrix a b c d e f) = shearMatrix a.toFlt b.toFlt c.toFlt d.toFlt e.toFlt f.toFlt := by
  unfold shearMatrix
  rw [rowMajor4]
  simp only [hom.one, hom.zero]

/-- The first vertex of the last face with the given normal. -/
theorem faceVertex_toFlt (b : BBox (SFlt P.fmt) 3) (n : Vec (SFlt P.fmt) 3) :
    (b.faces.foldl (fun acc f => if veq f.2 n then some (f.1 0) else acc) none).map (vmap toFlt) =
      (bmap toFlt b).faces.foldl (fun acc f => if veq f.2 (vmap toFlt n) then some (f.1 0) else acc) none := by
  have hv : ∀ x y z : SFlt P.fmt, (![x.toFlt, y.toFlt, z.toFlt] : Vec (Flt P.fmt) 3) = vmap toFlt ![x, y, z] := by
    intro x y z
    funext i
    fin_cases i <;> rfl
  have h1 : (-1 : Flt P.fmt) = (-1 : SFlt P.fmt).toFlt := by rw [hom.neg, hom.one]
  have h0 : (0 : Flt P.fmt) = (0 : SFlt P.fmt).toFlt := rfl
  have h1' : (1 : Flt P.fmt) = (1 : SFlt P.fmt).toFlt := rfl
  unfold BBox.faces
  simp only [List.foldl_cons, List.foldl_nil, Matrix.cons_val_zero]
  rw [h1, h0, h1']
  simp only [hv, veq_toFlt, apply_ite (Option.map (vmap toFlt)), Option.map_some, Option.map_none]
  rfl

end SFlt

/-- `shear_bbox_matrix`, if no upper bound of the box is `-0`: it succeeds in the same cases, with the same entries up to the signs of zeros. -/
theorem C117_shear (b : BBox (SFlt P.fmt) 3) (side delta : Vec (SFlt P.fmt) 3) (h : ∀ i, b.max i ≠ negZero) :
    (shearBBoxMatrix b side delta).map (mmap toFlt) = shearBBoxMatrix (bmap toFlt b) (vmap toFlt side) (vmap toFlt delta) := by
  have hd : ∀ i j, (vdivs delta (b.size i) j).toFlt = vdivs (vmap toFlt delta) ((bmap toFlt b).size i) j := fun i j =>
    div_sub_toFlt (delta j) (h i) (b.min i)
  unfold shearBBoxMatrix
  dsimp only
  rw [← hom.vneg, ← faceVertex_toFlt, Option.map_map, Option.map_map]
  congr 1
  funext v
  dsimp only [Function.comp]
  rw [hom.mmul, hom.mmul, translationMatrix_toFlt, translationMatrix_toFlt, hom.vneg]
  congr 2
  simp only [← vaxis_toFlt, ← hom.vneg, veq_toFlt]
  simp only [apply_ite (mmap toFlt), shearMatrix_toFlt, matId_toFlt, hom.neg, hom.zero, hd]

/-- The unit cube has no upper bound `-0`. -/
example : ∀ i : Fin 3, (⟨fun _ => 0, fun _ => 1⟩ : BBox (SFlt binary64.fmt) 3).max i ≠ negZero := fun _ h => (nomatch h)

/-- `view_matrix` and `shear_matrix`, for any arguments. -/
theorem C117_view (d u : Vec (SFlt P.fmt) 3) (a b c x y z : SFlt P.fmt) :
    mmap toFlt (viewMatrix d u) = viewMatrix (vmap toFlt d) (vmap toFlt u) ∧
    mmap toFlt (shearMatrix a b c x y z) = shearMatrix a.toFlt b.toFlt c.toFlt x.toFlt y.toFlt z.toFlt := by
  refine ⟨?_, shearMatrix_toFlt a b c x y z⟩
  unfold viewMatrix
  dsimp only
  rw [rowMajor4]
  simp only [← hom.cross, hom.neg, hom.zero, hom.one]
  simp only [vmap, hom.neg]

namespace SFlt

theorem isNegB_round {q : ℚ} (h : 0 ≤ q) : (Flt.round q : Flt P.fmt).isNegB = false := by
  obtain ⟨_, h1, _⟩ := FltQuad.round_sign (P := P) q
  generalize (Flt.round q : Flt P.fmt) = z at h1
  rcases z with _ | _ | _ | ⟨r, hr⟩
  all_goals first | rfl | skip
  · exact absurd (h1 rfl) (not_lt.2 h)
  · refine decide_eq_false fun hl => not_lt.2 h (h1 ?_)
    rw [lt_zero_flt (show (Flt.fin r hr : Flt P.fmt).isFinite from trivial)]
    exact decide_eq_true hl

/-- A product of numbers without a sign has none. -/
theorem mul_sign_false {x y : SFlt P.fmt} (hx : x.signBit = false) (hy : y.signBit = false) : (x * y).signBit = false := by
  rcases x with _ | a
  · cases hx
  rcases y with _ | b
  · cases hy
  have e : (of a * of b : SFlt P.fmt) = of (a * b) := by
    show signed ((of a : SFlt P.fmt).signBit != (of b : SFlt P.fmt).signBit) (a * b) = _
    rw [hx, hy]
    unfold signed
    simp
  rw [e]
  have hx' : a.isNegB = false := hx
  have hy' : b.isNegB = false := hy
  show (a * b).isNegB = false
  have inf : ∀ q : ℚ, decide (q < 0) = false → (Flt.infTimes q : Flt P.fmt).isNegB = false := by
    intro q hq
    have hq' := of_decide_eq_false hq
    unfold Flt.infTimes
    split
    · rfl
    · first
      | (split
         · rfl
         · first | rfl | (exfalso; apply hq'; rcases lt_trichotomy q 0 with h | h | h <;> first | exact h | contradiction))
      | rfl
  rcases a with _ | _ | _ | ⟨q, hq⟩ <;> rcases b with _ | _ | _ | ⟨r, hr⟩
  all_goals first
    | rfl
    | exact absurd (show true = false from hx') (by decide)
    | exact absurd (show true = false from hy') (by decide)
    | exact isNegB_round (mul_nonneg (not_lt.1 (of_decide_eq_false hx')) (not_lt.1 (of_decide_eq_false hy')))
    | exact inf _ hx'
    | exact inf _ hy'

theorem ne_of_sign {x : SFlt P.fmt} (h : x.signBit = false) : x ≠ negZero := by
  rintro rfl
  cases h

/-- A quotient of numbers without a sign is not `-0`. -/
theorem div_sign_ne {x y : SFlt P.fmt} (hx : x.signBit = false) (hy : y.signBit = false) : x / y ≠ negZero := by
  rcases x with _ | a
  · cases hx
  cases hz : y.toFlt.isZeroB
  · have e : of a / y = signed ((of a : SFlt P.fmt).signBit != y.signBit) (a / y.toFlt) := by
      show (if y.toFlt.isZeroB then _ else signed ((of a : SFlt P.fmt).signBit != y.signBit) (a / y.toFlt) : SFlt P.fmt) = _
      rw [hz]; rfl
    rw [e, hx, hy]
    unfold signed
    simp
  · rcases a with _ | _ | _ | ⟨q, hq⟩
    · show (if y.toFlt.isZeroB then of .nan else _ : SFlt P.fmt) ≠ negZero
      rw [hz]; exact fun h => (nomatch h)
    · show (if y.toFlt.isZeroB then (if _ then of .ninf else of .pinf) else _ : SFlt P.fmt) ≠ negZero
      rw [hz, if_pos rfl]; split <;> exact fun h => (nomatch h)
    · show (if y.toFlt.isZeroB then (if _ then of .ninf else of .pinf) else _ : SFlt P.fmt) ≠ negZero
      rw [hz, if_pos rfl]; split <;> exact fun h => (nomatch h)
    · show (if y.toFlt.isZeroB then (if q = 0 then of .nan else if _ then of .ninf else of .pinf) else _ : SFlt P.fmt) ≠ negZero
      rw [hz, if_pos rfl]
      split
      · exact fun h => (nomatch h)
      · split <;> exact fun h => (nomatch h)

end SFlt

/-- `perspective_matrix`, if the near plane and the tangent of half the field of view have no negative sign, the viewport has no negative size, and the
far plane is not `-0`.  The near plane can be `+0`, and the sizes at the near plane can underflow. -/
theorem C117_perspective (tanS : SFlt P.fmt → SFlt P.fmt) (tan : Flt P.fmt → Flt P.fmt) (htan : ∀ x, (tanS x).toFlt = tan x.toFlt)
    (fov near far : SFlt P.fmt) (width height : ℤ) (ht : (tanS (toRadians (of P.pi) fov / 2)).signBit = false) (hn : near.signBit = false)
    (hf : far ≠ negZero) (hw : 0 ≤ width) (hh : 0 ≤ height) :
    mmap toFlt (perspectiveMatrixG tanS (of P.pi) (of (Flt.round (3 / 4))) (fun n => of (Flt.round n)) fov near far width height) =
      perspectiveMatrixF P tan fov.toFlt near.toFlt far.toFlt width height := by
  have t2 : (2 : SFlt P.fmt).toFlt = 2 := rfl
  have t180 : (180 : SFlt P.fmt).toFlt = 180 := rfl
  have n2 : (2 : SFlt P.fmt) ≠ negZero := fun h => (nomatch h)
  have n180 : (180 : SFlt P.fmt) ≠ negZero := fun h => (nomatch h)
  have sI : ∀ n : ℤ, 0 ≤ n → (of (Flt.round (n : ℚ)) : SFlt P.fmt).signBit = false := fun n h => isNegB_round (Int.cast_nonneg h)
  have s3 : (of (Flt.round (3 / 4)) : SFlt P.fmt).signBit = false := isNegB_round (by norm_num)
  have sv := mul_sign_false (mul_sign_false ht s3) hn
  have sw := mul_sign_false sv (sI width hw)
  have nh := div_sign_ne sw (sI height hh)
  have nI : (of (Flt.round (height : ℚ)) : SFlt P.fmt) ≠ negZero := fun h => (nomatch h)
  have er : (toRadians (of P.pi) fov / 2 : SFlt P.fmt).toFlt = toRadians P.pi fov.toFlt / 2 := by
    unfold toRadians
    rw [div_of_ne_negZero _ _ n2, t2]
    congr 1
    rw [div_of_ne_negZero _ _ n180, hom.mul, t180]
    rfl
  unfold perspectiveMatrixF perspectiveMatrixG
  dsimp only
  rw [rowMajor4]
  simp only [div_sub_toFlt _ hf, div_of_ne_negZero _ _ nh, div_of_ne_negZero _ _ (ne_of_sign sv), div_of_ne_negZero _ _ nI, hom.neg, hom.add, hom.mul,
    hom.zero, hom.one, t2, htan, er]
  rfl

/-- A field of view of 90 degrees, for a tangent that is 1 there, between the planes 1 and 2, meets the hypotheses. -/
example : let tanS : SFlt binary32.fmt → SFlt binary32.fmt := fun _ => 1
    (∀ x, (tanS x).toFlt = 1) ∧ (tanS (toRadians (of binary32.pi) 90 / 2)).signBit = false ∧ (1 : SFlt binary32.fmt).signBit = false ∧
    (2 : SFlt binary32.fmt) ≠ negZero :=
  ⟨fun _ => rfl, one_sign, one_sign, fun h => (nomatch h)⟩

end vm
