import Verif.Props.Quat

/-!
# C96: products of a quaternion and a scalar
-/

universe u

set_option linter.unusedSectionVars false
set_option linter.unusedSimpArgs false

namespace vm
variable {K : Type u} [Field K] [LinearOrder K] [IsStrictOrderedRing K]

/-- Scalars may be written on either side, and repeated scaling is scaling by the product. -/
theorem C96_scale_sides_partial (q : Quat K) (s t : K) :
    Quat.scaleLeft s q = q.scale s ∧ (q.scale s).scale t = q.scale (s * t) ∧ q.scale 1 = q ∧ q.scale (-1) = q.neg ∧
    q.pos = q := by
  refine ⟨?_, ?_, ?_, ?_, rfl⟩
  · exact Quat.ext' (mul_comm _ _) rfl
  · exact Quat.ext' (mul_assoc _ _ _) rfl
  · exact Quat.ext' (mul_one _) rfl
  · exact Quat.ext' (by simp [Quat.scale, Quat.neg]) rfl

/-- The product of a quaternion and a scalar is the quaternion product with the scalar only if the scalar is one or the quaternion is
real. -/
theorem C96_scale_is_product_iff (q : Quat K) (s : K) :
    (q.scale s = q.mul ⟨s, 0⟩ ↔ s = 1 ∨ q.v = 0) ∧ (q.scale s = Quat.mul ⟨s, 0⟩ q ↔ s = 1 ∨ q.v = 0) := by
  have e1 : q.mul ⟨s, 0⟩ = ⟨q.r * s, s • q.v⟩ := by
    apply Quat.ext'
    · simp [Quat.mul, dot3]
    · apply ext3 <;> simp [Quat.mul, mul_comm]
  have e2 : Quat.mul ⟨s, 0⟩ q = ⟨q.r * s, s • q.v⟩ := by
    apply Quat.ext'
    · simp [Quat.mul, dot3, mul_comm]
    · apply ext3 <;> simp [Quat.mul]
  have key : q.scale s = ⟨q.r * s, s • q.v⟩ ↔ s = 1 ∨ q.v = 0 := by
    rw [Quat.scale, Quat.mk.injEq]
    constructor
    · rintro ⟨-, h⟩
      by_contra hne
      rw [not_or] at hne
      apply hne.1
      obtain ⟨i, hi⟩ := Function.ne_iff.1 hne.2
      have := congrFun h i
      rw [Pi.smul_apply, smul_eq_mul] at this
      exact (mul_right_cancel₀ hi (by rw [one_mul]; exact this)).symm
    · rintro (h | h)
      · simp [h]
      · simp [h]
  rw [e1, e2]
  exact ⟨key, key⟩

/-- Scaling a quaternion by two does not give the same as adding it to itself: the vector part is not scaled, so that the direction of
the quaternion changes, and with it the rotation. -/
theorem C96_scale_fails : ∃ (q : Quat ℚ) (v : Vec ℚ 3), q.scale 2 ≠ ⟨q.r + q.r, q.v + q.v⟩ ∧
    (∀ k : ℚ, (q.scale 2).rotate v ≠ k • q.rotate v) := by
  refine ⟨⟨1, ![0, 0, 1]⟩, ![1, 0, 0], ?_, fun k h => ?_⟩
  · decide +kernel
  · have h0 := congrFun h 0
    have e1 : (Quat.scale (⟨1, ![0, 0, 1]⟩ : Quat ℚ) 2).rotate ![1, 0, 0] = ![3, 4, 0] := by decide +kernel
    have e2 : (⟨1, ![0, 0, 1]⟩ : Quat ℚ).rotate ![1, 0, 0] = ![0, 2, 0] := by decide +kernel
    rw [e1, e2] at h0
    simp at h0

/-- The default quaternion is zero; it maps every vector to zero, so it is not the identity rotation. -/
theorem C96_default (q : Quat K) (v : Vec K 3) :
    (Quat.zero : Quat K).mul q = Quat.zero ∧ q.mul Quat.zero = Quat.zero ∧ (Quat.zero : Quat K).rotate v = 0 := by
  refine ⟨?_, ?_, ?_⟩
  · apply Quat.ext'
    · simp [Quat.mul, Quat.zero, dot3]
    · apply ext3 <;> simp [Quat.mul, Quat.zero]
  · apply Quat.ext'
    · simp [Quat.mul, Quat.zero, dot3]
    · apply ext3 <;> simp [Quat.mul, Quat.zero]
  · apply ext3 <;> simp [Quat.rotate, Quat.conjugate, Quat.mul, Quat.zero, dot3]

/-- Conversion by a ring homomorphism, such as the exact conversion to a wider type, commutes with product, conjugate and rotation. -/
theorem C96_convert {L : Type u} [Field L] [LinearOrder L] [IsStrictOrderedRing L] (f : K →+* L) (p q : Quat K) (v : Vec K 3) :
    Quat.convert f (p.mul q) = (Quat.convert f p).mul (Quat.convert f q) ∧
    Quat.convert f p.conjugate = (Quat.convert f p).conjugate ∧
    (fun i => f (p.rotate v i)) = (Quat.convert f p).rotate fun i => f (v i) := by
  refine ⟨?_, ?_, ?_⟩
  · apply Quat.ext'
    · simp [Quat.mul, Quat.convert, dot3]
    · apply ext3 <;> simp [Quat.mul, Quat.convert]
  · apply Quat.ext'
    · simp [Quat.convert, Quat.conjugate]
    · apply ext3 <;> simp [Quat.convert, Quat.conjugate]
  · apply ext3 <;> simp [Quat.rotate, Quat.conjugate, Quat.mul, Quat.convert, dot3]

example : (⟨3, 0⟩ : Quat ℚ).scale 5 = (⟨3, 0⟩ : Quat ℚ).mul ⟨5, 0⟩ ∧
    (⟨3, ![1, 2, 3]⟩ : Quat ℚ).scale 5 ≠ (⟨3, ![1, 2, 3]⟩ : Quat ℚ).mul ⟨5, 0⟩ := by
  decide +kernel

end vm
