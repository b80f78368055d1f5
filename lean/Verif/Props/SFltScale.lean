import Verif.Props.SFltSegment

set_option linter.unusedSectionVars false
set_option linter.unusedSimpArgs false

/-! C117, continued: translations, scalings, the matrices that scale a box, and the orthographic projection. -/

namespace vm

open SFlt

variable {P : BinPar} {S : ℕ}

namespace SFlt

theorem matId_toFlt (R C : ℕ) : mmap toFlt (matId R C : Mat (SFlt P.fmt) R C) = matId R C := by
  funext c r
  unfold mmap matId
  split <;> rfl

theorem translationMatrix_toFlt (d : Vec (SFlt P.fmt) S) : mmap toFlt (translationMatrix d) = translationMatrix (vmap toFlt d) := by
  unfold translationMatrix
  have : ∀ (n : ℕ) (h : n ≤ S) (m : Mat (SFlt P.fmt) (S + 1) (S + 1)),
      mmap toFlt (Fin.foldl n (fun m i => mset m (Fin.castLE h i).castSucc (Fin.last S) (d (Fin.castLE h i))) m) =
        Fin.foldl n (fun m i => mset m (Fin.castLE h i).castSucc (Fin.last S) (vmap toFlt d (Fin.castLE h i))) (mmap toFlt m) := by
    intro n
    induction n with
    | zero => intro h m; simp only [Fin.foldl_zero]
    | succ n ih =>
      intro h m
      rw [Fin.foldl_succ_last, Fin.foldl_succ_last, Hom.mset]
      congr 1
      exact ih (by omega) m
  rw [← matId_toFlt]
  exact this S le_rfl _

theorem scalingMatrix_toFlt (d : Vec (SFlt P.fmt) S) : mmap toFlt (scalingMatrix d) = scalingMatrix (vmap toFlt d) := by
  unfold scalingMatrix
  have : ∀ (n : ℕ) (h : n ≤ S) (m : Mat (SFlt P.fmt) (S + 1) (S + 1)),
      mmap toFlt (Fin.foldl n (fun m i => mset m (Fin.castLE h i).castSucc (Fin.castLE h i).castSucc (d (Fin.castLE h i))) m) =
        Fin.foldl n (fun m i => mset m (Fin.castLE h i).castSucc (Fin.castLE h i).castSucc (vmap toFlt d (Fin.castLE h i))) (mmap toFlt m) := by
    intro n
    induction n with
    | zero => intro h m; simp only [Fin.foldl_zero]
    | succ n ih =>
      intro h m
      rw [Fin.foldl_succ_last, Fin.foldl_succ_last, Hom.mset]
      congr 1
      exact ih (by omega) m
  rw [← matId_toFlt]
  exact this S le_rfl _

/-- A difference is `-0` only if the first number is. -/
theorem sub_ne_negZero {x : SFlt P.fmt} (h : x ≠ negZero) (y : SFlt P.fmt) : x - y ≠ negZero := fun e => h (add_negZero (b := -y) e).1

theorem div_sub_toFlt (z : SFlt P.fmt) {x : SFlt P.fmt} (h : x ≠ negZero) (y : SFlt P.fmt) :
    (z / (x - y)).toFlt = z.toFlt / (x.toFlt - y.toFlt) := by
  rw [div_of_ne_negZero _ _ (sub_ne_negZero h y), hom.sub]

theorem scaleFactors_toFlt (a : Vec (SFlt P.fmt) 3) (b : BBox (SFlt P.fmt) 3) (h : ∀ i, b.max i ≠ negZero) :
    vmap toFlt (fun i => a i / b.size i) = fun i => vmap toFlt a i / (bmap toFlt b).size i :=
  funext fun i => div_sub_toFlt (a i) (h i) (b.min i)

end SFlt

/-- The matrices for translation and scaling, for any arguments, and the matrices that scale a box, if no upper bound of the old box is `-0`: the same
entries up to the signs of zeros.  A flat box then has the scale factors that it has with one zero. -/
theorem C117_scale (d : Vec (SFlt P.fmt) S) (old new : BBox (SFlt P.fmt) 3) (size anchor : Vec (SFlt P.fmt) 3) (h : ∀ i, old.max i ≠ negZero) :
    mmap toFlt (translationMatrix d) = translationMatrix (vmap toFlt d) ∧
    mmap toFlt (scalingMatrix d) = scalingMatrix (vmap toFlt d) ∧
    mmap toFlt (scaleBBoxMatrix old new) = scaleBBoxMatrix (bmap toFlt old) (bmap toFlt new) ∧
    mmap toFlt (scaleBBoxMatrixWithAnchor old size anchor) = scaleBBoxMatrixWithAnchor (bmap toFlt old) (vmap toFlt size) (vmap toFlt anchor) := by
  refine ⟨translationMatrix_toFlt d, scalingMatrix_toFlt d, ?_, ?_⟩
  · unfold scaleBBoxMatrix
    dsimp only
    rw [hom.mmul, hom.mmul, translationMatrix_toFlt, translationMatrix_toFlt, scalingMatrix_toFlt, scaleFactors_toFlt _ _ h, hom.vneg]
    have : vmap toFlt new.size = (bmap toFlt new).size := hom.vsub _ _
    rw [this]
    rfl
  · unfold scaleBBoxMatrixWithAnchor
    dsimp only
    rw [hom.mmul, hom.mmul, translationMatrix_toFlt, translationMatrix_toFlt, scalingMatrix_toFlt, scaleFactors_toFlt _ _ h, hom.vneg]

/-- A flat box between `-0` and `+0` meets the hypothesis. -/
example : ∃ old : BBox (SFlt binary32.fmt) 3, (∀ i, old.max i ≠ negZero) ∧ old.min 0 = negZero ∧ old.max 0 = 0 :=
  ⟨⟨fun _ => negZero, fun _ => 0⟩, fun _ h => (nomatch h), rfl, rfl⟩

/-- The orthographic projection, if the right, upper and far bounds are not `-0`. -/
theorem C117_ortho (n f l t r b : SFlt P.fmt) (hf : f ≠ negZero) (ht : t ≠ negZero) (hr : r ≠ negZero) :
    mmap toFlt (orthoMatrix n f l t r b) = orthoMatrix n.toFlt f.toFlt l.toFlt t.toFlt r.toFlt b.toFlt := by
  have t2 : (2 : SFlt P.fmt).toFlt = 2 := rfl
  unfold orthoMatrix
  dsimp only
  rw [rowMajor4]
  simp only [div_sub_toFlt _ hf, div_sub_toFlt _ ht, div_sub_toFlt _ hr, hom.neg, hom.add, hom.zero, hom.one, t2]

/-- A volume between -1 and 1 meets the hypotheses. -/
example : (1 : SFlt binary32.fmt) ≠ negZero := fun h => (nomatch h)

/-- Without the hypothesis it does not hold: for a volume without width between the bounds `+0` and `-0`, which compare equal, the scale along the first
axis is minus infinity, and plus infinity if the right bound is `+0`. -/
theorem C117_ortho_fails (n f t b : SFlt P.fmt) : Cmp.eq (0 : SFlt P.fmt) negZero = true ∧
    orthoMatrix n f 0 t negZero b 0 0 = of .ninf ∧ orthoMatrix n f 0 t 0 b 0 0 = of .pinf := by
  have z : (0 : Flt P.fmt) + 0 = 0 := Flt.add_zero' 0
  have z' : -(0 : Flt P.fmt) = 0 := congrArg SFlt.toFlt (show -(negZero : SFlt P.fmt) = 0 from rfl)
  have n1 : -(0 : SFlt P.fmt) = negZero := by
    show signed (!(0 : Flt P.fmt).isNegB) (-(0 : Flt P.fmt)) = negZero
    rw [z']; rfl
  have s1 : (negZero : SFlt P.fmt) - 0 = negZero := by
    show (negZero : SFlt P.fmt) + -0 = negZero
    rw [n1]
    show signed (F := P.fmt) _ ((0 : Flt P.fmt) + 0) = negZero
    rw [z]; rfl
  have s2 : (0 : SFlt P.fmt) - 0 = 0 := by
    show (0 : SFlt P.fmt) + -0 = 0
    rw [n1]
    show signed (F := P.fmt) _ ((0 : Flt P.fmt) + 0) = 0
    rw [z]; rfl
  have h2 : ∃ h, (2 : Flt P.fmt) = .fin 2 h := by
    obtain ⟨hf, hv⟩ := Flt.two_eq P
    generalize (2 : Flt P.fmt) = x at hf hv
    rcases x with _ | _ | _ | ⟨q, hq⟩
    · exact hf.elim
    · exact hf.elim
    · exact hf.elim
    · have hv' : q = 2 := hv
      subst hv'
      exact ⟨hq, rfl⟩
  obtain ⟨h, e⟩ := h2
  have e' : (2 : SFlt P.fmt) = of (.fin 2 h) := congrArg of e
  have b2 : (of (.fin 2 h) : SFlt P.fmt).signBit = false := by
    show decide ((2 : ℚ) < 0) = false
    simp
  refine ⟨eq_zero_iff (0 : SFlt P.fmt), ?_, ?_⟩
  · show (2 : SFlt P.fmt) / (negZero - 0) = _
    rw [s1, e']
    show (if (2 : ℚ) = 0 then of .nan else if ((of (.fin 2 h) : SFlt P.fmt).signBit != true) then of .ninf else of .pinf : SFlt P.fmt) = _
    rw [b2]; simp
  · show (2 : SFlt P.fmt) / (0 - 0) = _
    rw [s2, e']
    show (if (2 : ℚ) = 0 then of .nan else if ((of (.fin 2 h) : SFlt P.fmt).signBit != false) then of .ninf else of .pinf : SFlt P.fmt) = _
    rw [b2]; simp

end vm
