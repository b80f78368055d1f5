import Verif.Props.FltMat
import Verif.Props.Order
import Verif.Lemmas.FltCmp

/-! Products of the form translation * linear * translation in IEEE arithmetic, and equality of vectors of floats. -/

set_option linter.unusedSectionVars false
set_option linter.unusedSimpArgs false

namespace vm

namespace FltBM
variable {F : Fmt}

/-- The matrix with linear part `A` (columns first) and translation `t`. -/
def aff (A : Fin 3 → Fin 3 → Flt F) (t : Vec (Flt F) 3) : Mat (Flt F) 4 4 :=
  ![![A 0 0, A 0 1, A 0 2, 0], ![A 1 0, A 1 1, A 1 2, 0], ![A 2 0, A 2 1, A 2 2, 0], ![t 0, t 1, t 2, 1]]

theorem translation_aff (d : Vec (Flt F) 3) : translationMatrix d = aff (fun c r => if c = r then 1 else 0) d := by
  funext c r
  induction c using Fin.lastCases with
  | last =>
    induction r using Fin.lastCases with
    | last => rw [translation_corner]; rfl
    | cast r => rw [translation_last]; fin_cases r <;> rfl
  | cast c =>
    rw [translation_cast]
    fin_cases c <;> fin_cases r <;> rfl

theorem scaling_aff (f : Vec (Flt F) 3) : scalingMatrix f = aff (fun c r => if c = r then f c else 0) 0 := by
  funext c r
  induction c using Fin.lastCases with
  | last => rw [scaling_last]; fin_cases r <;> rfl
  | cast c =>
    induction r using Fin.lastCases with
    | last => rw [scaling_cast_last]; fin_cases c <;> rfl
    | cast r => rw [scaling_cast]; fin_cases c <;> fin_cases r <;> rfl

theorem mmul4 (a b : Mat (Flt F) 4 4) (c r : Fin 4) :
    mmul a b c r = 0 + a 0 r * b c 0 + a 1 r * b c 1 + a 2 r * b c 2 + a 3 r * b c 3 := by
  simp only [mmul, Fin.foldl_succ_last, Fin.foldl_zero]
  rfl

theorem mmulPoint4 (m : Mat (Flt F) 4 4) (p : Vec (Flt F) 3) (r : Fin 3) : mmulPoint m p r =
    (0 + m 0 r.castSucc * p 0 + m 1 r.castSucc * p 1 + m 2 r.castSucc * p 2 + m 3 r.castSucc * 1) /
      (0 + m 0 3 * p 0 + m 1 3 * p 1 + m 2 3 * p 2 + m 3 3 * 1) := by
  have e : ∀ r, mmulVec m (toHomogeneous p) r = 0 + m 0 r * p 0 + m 1 r * p 1 + m 2 r * p 2 + m 3 r * 1 := by
    intro r
    simp only [mmulVec, Fin.foldl_succ_last, Fin.foldl_zero]
    rfl
  show mmulVec m (toHomogeneous p) r.castSucc / mmulVec m (toHomogeneous p) 3 = _
  rw [e, e]

/-- A point moved by an affine matrix. -/
theorem aff_point (A : Fin 3 → Fin 3 → Flt F) (t p : Vec (Flt F) 3) (hp : ∀ i, (p i).isFinite) (r : Fin 3) :
    mmulPoint (aff A t) p r = A 0 r * p 0 + A 1 r * p 1 + A 2 r * p 2 + t r := by
  rw [mmulPoint4]
  have e : (0 + aff A t 0 3 * p 0 + aff A t 1 3 * p 1 + aff A t 2 3 * p 2 + aff A t 3 3 * 1 : Flt F) = 1 := by
    show (0 + 0 * p 0 + 0 * p 1 + 0 * p 2 + 1 * 1 : Flt F) = 1
    rw [Flt.zero_mul_fin (hp 0), Flt.zero_mul_fin (hp 1), Flt.zero_mul_fin (hp 2)]
    simp only [Flt.zero_add', Flt.one_mul']
  rw [e, Flt.div_one', Flt.zero_add']
  fin_cases r
  · show A 0 0 * p 0 + A 1 0 * p 1 + A 2 0 * p 2 + t 0 * 1 = _
    rw [Flt.mul_one']; rfl
  · show A 0 1 * p 0 + A 1 1 * p 1 + A 2 1 * p 2 + t 1 * 1 = _
    rw [Flt.mul_one']; rfl
  · show A 0 2 * p 0 + A 1 2 * p 1 + A 2 2 * p 2 + t 2 * 1 = _
    rw [Flt.mul_one']; rfl

/-- A linear map between two translations. -/
theorem conj_aff (A : Fin 3 → Fin 3 → Flt F) (a b : Vec (Flt F) 3) (hA : ∀ c r, (A c r).isFinite) (ha : ∀ i, (a i).isFinite) (hb : ∀ i, (b i).isFinite) :
    mmul (mmul (translationMatrix a) (aff A 0)) (translationMatrix b) = aff A (fun r => A 0 r * b 0 + A 1 r * b 1 + A 2 r * b 2 + a r) := by
  have hz : ∀ c r, 0 * A c r = 0 := fun c r => Flt.zero_mul_fin (hA c r)
  have hz' : ∀ c r, A c r * 0 = 0 := fun c r => Flt.mul_zero_fin (hA c r)
  have ha0 : ∀ i, a i * 0 = 0 := fun i => Flt.mul_zero_fin (ha i)
  have hb0 : ∀ i, 0 * b i = 0 := fun i => Flt.zero_mul_fin (hb i)
  have z0 : (0 * 0 : Flt F) = 0 := Flt.zero_mul_fin Flt.zero_isFin
  have e1 : mmul (translationMatrix a) (aff A 0) = aff A a := by
    rw [translation_aff]
    funext c r
    rw [mmul4]
    fin_cases c <;> fin_cases r <;>
      simp [aff, hz, hz', ha0, z0, Flt.zero_add', Flt.add_zero', Flt.one_mul', Flt.mul_one']
  rw [e1, translation_aff]
  funext c r
  rw [mmul4]
  fin_cases c <;> fin_cases r <;>
    simp [aff, hz, hz', ha0, hb0, z0, Flt.zero_add', Flt.add_zero', Flt.one_mul', Flt.mul_one']

theorem same_iff (a b : Flt F) : sameScalar a b ↔ a = b := by
  unfold sameScalar
  rw [isNan_iff_key, isNan_iff_key]
  constructor
  · rintro (⟨h1, h2⟩ | h)
    · exact Flt.key_inj (h1.trans h2.symm)
    · obtain ⟨x, h1, h2⟩ := (IEEE.eq_iff a b).1 h
      exact Flt.key_inj (h1.trans h2.symm)
  · rintro rfl
    rcases h : Flt.key a with _ | x
    · exact Or.inl ⟨h, h⟩
    · exact Or.inr ((IEEE.eq_iff a a).2 ⟨x, h, h⟩)

/-- Without signed zeros, `operator==` of vectors of floats is equality. -/
theorem veq_flt {S : ℕ} (a b : Vec (Flt F) S) : veq a b = true ↔ a = b := by
  rw [C01_eq_is_componentwise]
  simp only [same_iff]
  exact ⟨funext, fun h i => congrFun h i⟩

end FltBM

end vm
