import Verif.Props.SFlt
import Verif.Model.PlaneG
import Verif.Model.SphereG

set_option linter.unusedSectionVars false
set_option linter.unusedSimpArgs false

/-! C117, continued: `mod`, `correct`, angles, planes through points, spheres and tests for units and parallel vectors. -/

namespace vm

open SFlt

variable {P : BinPar} {S : ℕ}

namespace SFlt

/-- A quotient by a zero is not finite, whatever the signs are. -/
theorem toInt64_div_zero (a b : SFlt P.fmt) (hb : b.toFlt = 0) : (Int64Cast.toInt64 (a / b).toFlt : Option ℤ) = none ∧
    (Int64Cast.toInt64 (a.toFlt / b.toFlt) : Option ℤ) = none := by
  have hz : b.toFlt.isZeroB = true := (isZeroB_iff _).2 hb
  have key : ∀ c : SFlt P.fmt, c.toFlt = 0 → (Int64Cast.toInt64 (a / c).toFlt : Option ℤ) = none := by
    intro c hc
    have hz : c.toFlt.isZeroB = true := (isZeroB_iff _).2 hc
    show Int64Cast.toInt64 (if c.toFlt.isZeroB then _ else _ : SFlt P.fmt).toFlt = none
    rw [if_pos hz]
    rcases h : a.toFlt with _ | _ | _ | ⟨q, hq⟩
    · rfl
    · dsimp only; split <;> rfl
    · dsimp only; split <;> rfl
    · dsimp only
      by_cases q0 : q = 0
      · rw [if_pos q0]; rfl
      · rw [if_neg q0]; split <;> rfl
  refine ⟨key b hb, ?_⟩
  have := key (of 0) rfl
  rw [div_of_ne_negZero a (of 0) (fun h => nomatch h)] at this
  rw [hb]
  exact this

/-- The absolute value of a quotient does not depend on the sign of a zero. -/
theorem abs_div (a b : SFlt P.fmt) : (abs (a / b)).toFlt = abs (a.toFlt / b.toFlt) := by
  by_cases hb : b = negZero
  · subst hb
    have e0 : (of 0 : SFlt P.fmt).toFlt = (negZero : SFlt P.fmt).toFlt := rfl
    rw [← e0, ← div_of_ne_negZero a (of 0) (fun h => nomatch h), ← hom.abs, hom.abs, hom.abs]
    have hz : (negZero : SFlt P.fmt).toFlt.isZeroB = true := (isZeroB_iff _).2 rfl
    have hz' : (of 0 : SFlt P.fmt).toFlt.isZeroB = true := (isZeroB_iff _).2 rfl
    have i1 : abs (Flt.ninf : Flt P.fmt) = Flt.pinf := rfl
    have i2 : abs (Flt.pinf : Flt P.fmt) = Flt.pinf := rfl
    have one : ∀ c : SFlt P.fmt, c.toFlt.isZeroB = true → (abs (a / c).toFlt = match a.toFlt with
        | .nan => Flt.nan
        | .fin q _ => if q = 0 then Flt.nan else Flt.pinf
        | _ => Flt.pinf) := by
      intro c hc
      show abs (if c.toFlt.isZeroB then _ else _ : SFlt P.fmt).toFlt = _
      rw [if_pos hc]
      rcases h : a.toFlt with _ | _ | _ | ⟨q, hq⟩
      · rfl
      · dsimp only; split <;> rfl
      · dsimp only; split <;> rfl
      · dsimp only
        by_cases q0 : q = 0
        · rw [if_pos q0, if_pos q0]; rfl
        · rw [if_neg q0, if_neg q0]; split <;> rfl
    rw [one _ hz, one _ hz']
  · rw [hom.abs, div_of_ne_negZero a b hb]

end SFlt

/-- `mod`, `correct` and the normalisation of angles: the same numbers up to the sign of a zero, and undefined in the same cases; for `mod` also if
the divisor is a zero. -/
theorem C117_mod (x y half e : SFlt P.fmt) (decimals fuel : ℕ) :
    (modG x y).map toFlt = modG x.toFlt y.toFlt ∧ (correctG half x decimals e).map toFlt = correctG half.toFlt x.toFlt decimals e.toFlt ∧
    (normalizeAngleG y fuel x).map toFlt = normalizeAngleG y.toFlt fuel x.toFlt := by
  have hm : ∀ x y : SFlt P.fmt, (modG x y).map toFlt = modG x.toFlt y.toFlt := by
    intro x y
    unfold modG
    by_cases hy : y.toFlt = 0
    · obtain ⟨h1, h2⟩ := toInt64_div_zero x y hy
      unfold truncG
      rw [h2, ← toInt64_toFlt, h1]
      rfl
    · have e : (x / y).toFlt = x.toFlt / y.toFlt := div_of_ne_negZero x y (fun h => hy (by rw [h]; rfl))
      rw [← e, ← Hom.truncG toInt64_toFlt ofInt64_toFlt, Option.map_map, Option.map_map]
      congr 1
      funext t
      show (x - y * t).toFlt = x.toFlt - y.toFlt * t.toFlt
      rw [hom.sub, hom.mul]
  refine ⟨hm x y, ?_, ?_⟩
  · unfold correctG
    by_cases hd : 32 ≤ decimals
    · rw [if_pos hd, if_pos hd]; rfl
    · rw [if_neg hd, if_neg hd]
      dsimp only
      rw [← ofInt64_toFlt, ← hom.mul, ← hom.roundG toInt64_toFlt ofInt64_toFlt, Option.map_map, Option.map_map]
      congr 1
      funext r
      show (if Cmp.lt (abs (x - r)) e then r / Int64Cast.ofInt64 (2 ^ decimals) else x : SFlt P.fmt).toFlt =
        if Cmp.lt (abs (x.toFlt - r.toFlt)) e.toFlt then r.toFlt / (Int64Cast.ofInt64 (2 ^ decimals) : SFlt P.fmt).toFlt else x.toFlt
      rw [← hom.sub, ← hom.abs, hom.lt]
      cases Cmp.lt (abs (x - r)) e
      · rfl
      · exact div_of_ne_negZero _ _ (fun h => nomatch h)
  · have ha : ∀ (n : ℕ) (x : SFlt P.fmt), (addUntilNonneg y n x).map toFlt = addUntilNonneg y.toFlt n x.toFlt := by
      intro n
      induction n with
      | zero => intro x; unfold addUntilNonneg; rw [hom.lt0]; cases Cmp.lt x 0 <;> rfl
      | succ n ih =>
        intro x
        unfold addUntilNonneg
        rw [hom.lt0, ← hom.add, ← ih]
        cases Cmp.lt x 0 <;> rfl
    unfold normalizeAngleG
    rw [← ha]
    cases addUntilNonneg y fuel x with
    | none => rfl
    | some a => exact hm a y

/-- `plane_normal` and `from_points`: success in the same cases, and the same plane up to the signs of zeros. -/
theorem C117_plane (s : Flt P.fmt → Flt P.fmt) (inf : SFlt P.fmt) (p1 p2 p3 : Vec (SFlt P.fmt) 3) (e : SFlt P.fmt) :
    ((Plane.planeNormalG (sqrtS s) inf p1 p2 p3 e).1, vmap toFlt (Plane.planeNormalG (sqrtS s) inf p1 p2 p3 e).2) =
      Plane.planeNormalG s inf.toFlt (vmap toFlt p1) (vmap toFlt p2) (vmap toFlt p3) e.toFlt ∧
    ((Plane.fromPointsG (sqrtS s) inf p1 p2 p3 e).1, pmap toFlt (Plane.fromPointsG (sqrtS s) inf p1 p2 p3 e).2) =
      Plane.fromPointsG s inf.toFlt (vmap toFlt p1) (vmap toFlt p2) (vmap toFlt p3) e.toFlt := by
  have hn : ((Plane.planeNormalG (sqrtS s) inf p1 p2 p3 e).1, vmap toFlt (Plane.planeNormalG (sqrtS s) inf p1 p2 p3 e).2) =
      Plane.planeNormalG s inf.toFlt (vmap toFlt p1) (vmap toFlt p2) (vmap toFlt p3) e.toFlt := by
    unfold Plane.planeNormalG isInf
    dsimp only
    rw [← hom.vsub, ← hom.vsub, ← hom.cross, ← (lengthG_toFlt s _).2, ← (lengthG_toFlt s (p3 - p1)).2, ← (lengthG_toFlt s (p2 - p1)).2, ← hom.mul,
      ← abs_div, hom.isNan, hom.eq, ← hom.neg, hom.eq, hom.lt, ← normalizeG_toFlt]
    split <;> rfl
  refine ⟨hn, ?_⟩
  unfold Plane.fromPointsG
  rw [← hn]
  dsimp only
  cases (Plane.planeNormalG (sqrtS s) inf p1 p2 p3 e).1
  · rfl
  · show (true, pmap toFlt (Plane.ofAnchor p1 _)) = (true, Plane.ofAnchor _ _)
    unfold Plane.ofAnchor pmap
    rw [← hom.dot]

/-- `intersect_ray_sphere` and the tests for unit vectors and parallel vectors: the same results, if the square root of zero is zero. -/
theorem C117_sphere (s : Flt P.fmt → Flt P.fmt) (s0 : s 0 = 0) (nan : SFlt P.fmt) (r : Ray (SFlt P.fmt) S) (c : Vec (SFlt P.fmt) S) (radius e : SFlt P.fmt)
    (a b : Vec (SFlt P.fmt) S) :
    (intersectRaySphereG (sqrtS s) nan r c radius).toFlt = intersectRaySphereG s nan.toFlt (rmap toFlt r) (vmap toFlt c) radius.toFlt ∧
    isUnitG (sqrtS s) a e = isUnitG s (vmap toFlt a) e.toFlt ∧ isParallelG (sqrtS s) a b e = isParallelG s (vmap toFlt a) (vmap toFlt b) e.toFlt := by
  have hs : ∀ x : SFlt P.fmt, (sqrtS s x).toFlt = s x.toFlt := by
    intro x
    rcases x with _ | x
    · exact s0.symm
    · rfl
  refine ⟨?_, ?_, ?_⟩
  · unfold intersectRaySphereG rmap
    dsimp only
    have t2 : (2 : Flt P.fmt) = (2 : SFlt P.fmt).toFlt := rfl
    have t4 : (4 : Flt P.fmt) = (4 : SFlt P.fmt).toFlt := rfl
    have d2 : ∀ x : SFlt P.fmt, x.toFlt / (2 : SFlt P.fmt).toFlt = (x / 2).toFlt := fun x => (div_of_ne_negZero x 2 (fun h => nomatch h)).symm
    rw [t2, t4, ← hom.vsub, ← hom.dot, ← hom.mul, ← hom.squaredLength, ← hom.mul, ← hom.mul, ← hom.sub, ← hom.mul, ← hom.sub, hom.lt0, ← hs, ← hom.neg,
      ← hom.add, ← hom.sub, d2, d2, hom.lt0, hom.lt0, hom.lt0', hom.lt0']
    split
    · rfl
    · split
      · rfl
      · split
        · exact hom.vmin _ _
        · exact hom.vmax _ _
  · unfold isUnitG
    rw [← (lengthG_toFlt s a).2, ← hom.one, hom.isEqual]
  · unfold isParallelG
    rw [← normalizeG_toFlt, ← normalizeG_toFlt, ← hom.dot, ← hom.abs, ← hom.one, hom.isEqual]

/-- C117_mod is about defined results too, and a zero divisor of either sign is undefined. -/
example : (modG (negZero : SFlt binary64.fmt) 1).map toFlt = modG 0 1 ∧ modG (1 : SFlt binary64.fmt) negZero = none ∧ modG (1 : SFlt binary64.fmt) 0 = none := by
  refine ⟨(C117_mod negZero 1 0 0 0 0).1, ?_, ?_⟩
  · have h := (toInt64_div_zero (1 : SFlt binary64.fmt) negZero rfl).1
    rw [toInt64_toFlt] at h
    unfold modG truncG
    rw [h]; rfl
  · have h := (toInt64_div_zero (1 : SFlt binary64.fmt) 0 rfl).1
    rw [toInt64_toFlt] at h
    unfold modG truncG
    rw [h]; rfl

/-- A correctly rounded square root of zero is zero. -/
example : ∃ s : Flt binary64.fmt → Flt binary64.fmt, CorrectSqrt binary64 s ∧ s 0 = 0 := by
  obtain ⟨s, hs⟩ := exists_correctSqrt binary64
  refine ⟨s, hs, ?_⟩
  obtain ⟨r, hr, h3, h4⟩ := hs.faithful.fin 0 binary64.fmt.rep_zero (le_refl 0)
  obtain ⟨h0, h5⟩ := h4
  have r0 : r = 0 := by
    by_contra hne
    have := (h5 0 binary64.fmt.rep_zero (le_refl 0)).1 (lt_of_le_of_ne h0 (Ne.symm hne))
    norm_num at this
  subst r0
  exact h3

end vm
