import Verif.Lemmas.FltGeom
import Verif.Lemmas.FltCmp
import Verif.Lemmas.MatExt
import Verif.Props.FltProducts

/-! C103: matrices in IEEE arithmetic.  Values are compared as numbers (the model has one zero). -/

set_option linter.unusedSectionVars false
set_option linter.unusedSimpArgs false

namespace vm

section fmt
variable {F : Fmt}

theorem Flt.round_of_rep {q : ℚ} (h : F.rep q) : (Flt.round q : Flt F) = Flt.fin q h := by
  have : ∀ (x : Ext) (hx : ∀ q, x = Ext.ofRat q → F.rep q), x = Ext.ofRat q → (Flt.ofExt x hx : Flt F) = Flt.fin q h := by
    intro x hx e
    subst e
    rfl
  exact this _ _ (F.rnd_rep h)

theorem Flt.zero_add' (a : Flt F) : 0 + a = a := by
  rcases a with _ | _ | _ | ⟨q, hq⟩ <;> try rfl
  show Flt.round (0 + q) = _
  rw [zero_add, Flt.round_of_rep hq]

theorem Flt.one_mul' (a : Flt F) : 1 * a = a := by
  rcases a with _ | _ | _ | ⟨q, hq⟩
  · rfl
  · show Flt.infTimes (-1) = _
    simp [Flt.infTimes]
  · show Flt.infTimes 1 = _
    simp [Flt.infTimes]
  · show Flt.round (1 * q) = _
    rw [one_mul, Flt.round_of_rep hq]

theorem Flt.mul_one' (a : Flt F) : a * 1 = a := by rw [Flt.mul_comm', Flt.one_mul']

theorem Flt.zero_mul_fin {a : Flt F} (h : a.isFinite) : 0 * a = 0 := by
  rcases a with _ | _ | _ | ⟨q, hq⟩
  · exact h.elim
  · exact h.elim
  · exact h.elim
  · show Flt.round (0 * q) = _
    rw [zero_mul, Flt.round_of_rep F.rep_zero]; rfl

theorem Flt.mul_zero_fin {a : Flt F} (h : a.isFinite) : a * 0 = 0 := by rw [Flt.mul_comm', Flt.zero_mul_fin h]

theorem Flt.div_one' (a : Flt F) : a / 1 = a := by
  rcases a with _ | _ | _ | ⟨q, hq⟩
  · rfl
  · show (if (0 : ℚ) ≤ 1 then Flt.ninf else Flt.pinf : Flt F) = _
    simp
  · show (if (0 : ℚ) ≤ 1 then Flt.pinf else Flt.ninf : Flt F) = _
    simp
  · show (if (1 : ℚ) = 0 then Flt.infTimes q else Flt.round (q / 1) : Flt F) = _
    rw [if_neg one_ne_zero, div_one, Flt.round_of_rep hq]

theorem Flt.zero_isFin : (0 : Flt F).isFinite := trivial
theorem Flt.one_isFin : (1 : Flt F).isFinite := trivial
theorem Flt.neg_fin {a : Flt F} (h : a.isFinite) : (-a).isFinite := by
  rcases a with _ | _ | _ | ⟨q, hq⟩
  · exact h.elim
  · exact h.elim
  · exact h.elim
  · trivial

/-- A sum of zeros. -/
theorem fsum_zero : ∀ {n : ℕ} (t : Fin n → Flt F), (∀ i, t i = 0) → Fin.foldl n (fun acc i => acc + t i) 0 = 0
  | 0, _, _ => Fin.foldl_zero _ _
  | n + 1, t, h => by
    rw [Fin.foldl_succ_last, fsum_zero (fun i => t i.castSucc) (fun i => h _), h, Flt.zero_add']

/-- A sum with one term that may be different from zero is that term. -/
theorem fsum_single : ∀ {n : ℕ} (t : Fin n → Flt F) (i : Fin n), (∀ j, j ≠ i → t j = 0) →
    Fin.foldl n (fun acc i => acc + t i) 0 = t i
  | 0, _, i, _ => i.elim0
  | n + 1, t, i, h => by
    rw [Fin.foldl_succ_last]
    induction i using Fin.lastCases with
    | last =>
      rw [fsum_zero (fun i => t i.castSucc) (fun i => h _ (Fin.castSucc_lt_last i).ne), Flt.zero_add']
    | cast i =>
      rw [fsum_single (fun i => t i.castSucc) i (fun j hj => h _ fun e => hj (Fin.castSucc_injective _ e)),
        h _ (Fin.castSucc_lt_last i).ne', Flt.add_zero']

/-- A sum whose terms other than the `i`-th and the last are zero. -/
theorem fsum_two {n : ℕ} (t : Fin (n + 1) → Flt F) (i : Fin n) (h : ∀ j : Fin n, j ≠ i → t j.castSucc = 0) :
    Fin.foldl (n + 1) (fun acc i => acc + t i) 0 = t i.castSucc + t (Fin.last n) := by
  rw [Fin.foldl_succ_last, fsum_single (fun i => t i.castSucc) i h]

theorem matId_zero {S : ℕ} {c r : Fin S} (h : c ≠ r) : (matId S S : Mat (Flt F) S S) c r = 0 := by rw [matId_apply, if_neg h]

theorem matId_one {S : ℕ} (c : Fin S) : (matId S S : Mat (Flt F) S S) c c = 1 := by rw [matId_apply, if_pos rfl]

/-- The identity matrix is exactly neutral for finite vectors, points and matrices of every size. -/
theorem C103_identity (F : Fmt) {S : ℕ} :
    (∀ v : Vec (Flt F) S, (∀ i, (v i).isFinite) → mmulVec (matId S S) v = v ∧ vmulMat v (matId S S) = v) ∧
    (∀ p : Vec (Flt F) S, (∀ i, (p i).isFinite) →
      mmulPoint (matId (S + 1) (S + 1)) p = p ∧ pointMulMat p (matId (S + 1) (S + 1)) = p) ∧
    (∀ m : Mat (Flt F) S S, (∀ c r, (m c r).isFinite) → mmul (matId S S) m = m ∧ mmul m (matId S S) = m) := by
  have hv : ∀ {S : ℕ} (v : Vec (Flt F) S), (∀ i, (v i).isFinite) → mmulVec (matId S S) v = v ∧ vmulMat v (matId S S) = v := by
    intro S v h
    constructor
    · funext r
      refine (fsum_single (fun c => matId S S c r * v c) r fun j hj => ?_).trans ?_
      · show matId S S j r * v j = 0
        rw [matId_zero hj, Flt.zero_mul_fin (h j)]
      · show matId S S r r * v r = v r
        rw [matId_one, Flt.one_mul']
    · funext c
      refine (fsum_single (fun i => v i * matId S S c i) c fun j hj => ?_).trans ?_
      · show v j * matId S S c j = 0
        rw [matId_zero hj.symm, Flt.mul_zero_fin (h j)]
      · show v c * matId S S c c = v c
        rw [matId_one, Flt.mul_one']
  refine ⟨fun v h => hv v h, fun p h => ?_, fun m h => ⟨?_, ?_⟩⟩
  · have hh : ∀ i, (toHomogeneous p i).isFinite := by
      intro i
      induction i using Fin.lastCases with
      | last => simp only [toHomogeneous, Fin.snoc_last]; exact Flt.one_isFin
      | cast i => simp only [toHomogeneous, Fin.snoc_castSucc]; exact h i
    have hc : toCartesian (toHomogeneous p) = p := by
      funext i
      simp only [toCartesian, toHomogeneous, Fin.snoc_last, Fin.snoc_castSucc, Flt.div_one']
    obtain ⟨h1, h2⟩ := hv _ hh
    constructor
    · unfold mmulPoint; rw [h1, hc]
    · unfold pointMulMat; rw [h2, hc]
  · funext c r
    refine (fsum_single (fun i => matId S S i r * m c i) r fun j hj => ?_).trans ?_
    · show matId S S j r * m c j = 0
      rw [matId_zero hj, Flt.zero_mul_fin (h c j)]
    · show matId S S r r * m c r = m c r
      rw [matId_one, Flt.one_mul']
  · funext c r
    refine (fsum_single (fun i => m i r * matId S S c i) c fun j hj => ?_).trans ?_
    · show m j r * matId S S c j = 0
      rw [matId_zero hj.symm, Flt.mul_zero_fin (h j r)]
    · show m c r * matId S S c c = m c r
      rw [matId_one, Flt.mul_one']

example : ∃ v : Vec (Flt binary64.fmt) 4, (∀ i, (v i).isFinite) ∧ v 0 ≠ v 1 :=
  ⟨![0, 1, 1, 1], by intro i; fin_cases i <;> trivial, by intro h; exact absurd (congrArg Flt.val h) (by decide +kernel)⟩

/-- Multiplying a vector with an infinite component by the identity matrix turns every other component into NaN. -/
theorem C103_identity_fails (F : Fmt) {S : ℕ} (v : Vec (Flt F) S) (i : Fin S) (h : v i = Flt.pinf ∨ v i = Flt.ninf) :
    ∀ r, r ≠ i → mmulVec (matId S S) v r = Flt.nan := by
  intro r hr
  have hadd : ∀ x : Flt F, x + Flt.nan = Flt.nan := by
    intro x; rcases x with _ | _ | _ | ⟨q, hq⟩ <;> rfl
  have hnan : ∀ {n : ℕ} (t : Fin n → Flt F) (i : Fin n), t i = Flt.nan → Fin.foldl n (fun acc i => acc + t i) 0 = Flt.nan := by
    intro n
    induction n with
    | zero => intro t i; exact i.elim0
    | succ n ih =>
      intro t i
      rw [Fin.foldl_succ_last]
      induction i using Fin.lastCases with
      | last => intro e; rw [e, hadd]
      | cast i => intro e; rw [ih (fun i => t i.castSucc) i e]; rfl
  refine hnan (fun c => matId S S c r * v c) i ?_
  show matId S S i r * v i = Flt.nan
  rw [matId_zero hr.symm]
  rcases h with h | h <;> rw [h]
  · show Flt.infTimes 0 = _
    simp [Flt.infTimes]
  · show Flt.infTimes (-0) = _
    simp [Flt.infTimes]

example : ∃ v : Vec (Flt binary64.fmt) 2, v 0 = Flt.pinf ∧ (1 : Fin 2) ≠ 0 := ⟨![Flt.pinf, 1], rfl, by decide⟩

theorem hom_cast {T : Type*} [One T] {S : ℕ} (p : Vec T S) (i : Fin S) : toHomogeneous p i.castSucc = p i := by
  simp only [toHomogeneous, Fin.snoc_castSucc]

theorem hom_last {T : Type*} [One T] {S : ℕ} (p : Vec T S) : toHomogeneous p (Fin.last S) = 1 := by
  simp only [toHomogeneous, Fin.snoc_last]

theorem cast_ne_last {S : ℕ} (i : Fin S) : i.castSucc ≠ Fin.last S := (Fin.castSucc_lt_last i).ne

/-- A translation matrix applied to a finite point gives exactly the floating point sum of the point and the offset; the
offset may be anything, including infinities. -/
theorem C103_translation (F : Fmt) {S : ℕ} (d p : Vec (Flt F) S) (hp : ∀ i, (p i).isFinite) :
    mmulPoint (translationMatrix d) p = p + d := by
  have hlast : mmulVec (translationMatrix d) (toHomogeneous p) (Fin.last S) = 1 := by
    refine (fsum_single (fun c => translationMatrix d c (Fin.last S) * toHomogeneous p c) (Fin.last S) fun j hj => ?_).trans ?_
    · induction j using Fin.lastCases with
      | last => exact absurd rfl hj
      | cast j =>
        show translationMatrix d j.castSucc (Fin.last S) * toHomogeneous p j.castSucc = 0
        rw [translation_cast, if_neg (cast_ne_last j), hom_cast, Flt.zero_mul_fin (hp j)]
    · show translationMatrix d (Fin.last S) (Fin.last S) * toHomogeneous p (Fin.last S) = 1
      rw [translation_corner, hom_last, Flt.one_mul']
  funext i
  show mmulVec (translationMatrix d) (toHomogeneous p) i.castSucc / mmulVec (translationMatrix d) (toHomogeneous p) (Fin.last S) = _
  rw [hlast, Flt.div_one']
  refine (fsum_two (fun c => translationMatrix d c i.castSucc * toHomogeneous p c) i fun j hj => ?_).trans ?_
  · show translationMatrix d j.castSucc i.castSucc * toHomogeneous p j.castSucc = 0
    rw [translation_cast, if_neg (fun e => hj (Fin.castSucc_injective _ e)), hom_cast, Flt.zero_mul_fin (hp j)]
  · show translationMatrix d i.castSucc i.castSucc * toHomogeneous p i.castSucc +
      translationMatrix d (Fin.last S) i.castSucc * toHomogeneous p (Fin.last S) = p i + d i
    rw [translation_cast, if_pos rfl, hom_cast, Flt.one_mul', translation_last, hom_last, Flt.mul_one']

example : ∃ p : Vec (Flt binary64.fmt) 3, (∀ i, (p i).isFinite) ∧ p ≠ 0 :=
  ⟨fun _ => 1, fun _ => trivial, by intro h; exact absurd (congrArg Flt.val (congrFun h 0)) (by decide +kernel)⟩

/-- A scaling matrix applied to a finite point gives exactly the componentwise floating point product. -/
theorem C103_scaling (F : Fmt) {S : ℕ} (f p : Vec (Flt F) S) (hp : ∀ i, (p i).isFinite) :
    mmulPoint (scalingMatrix f) p = fun i => f i * p i := by
  have hlast : mmulVec (scalingMatrix f) (toHomogeneous p) (Fin.last S) = 1 := by
    refine (fsum_single (fun c => scalingMatrix f c (Fin.last S) * toHomogeneous p c) (Fin.last S) fun j hj => ?_).trans ?_
    · induction j using Fin.lastCases with
      | last => exact absurd rfl hj
      | cast j =>
        show scalingMatrix f j.castSucc (Fin.last S) * toHomogeneous p j.castSucc = 0
        rw [scaling_cast_last, hom_cast, Flt.zero_mul_fin (hp j)]
    · show scalingMatrix f (Fin.last S) (Fin.last S) * toHomogeneous p (Fin.last S) = 1
      rw [scaling_last, if_pos rfl, hom_last, Flt.one_mul']
  funext i
  show mmulVec (scalingMatrix f) (toHomogeneous p) i.castSucc / mmulVec (scalingMatrix f) (toHomogeneous p) (Fin.last S) = _
  rw [hlast, Flt.div_one']
  refine (fsum_two (fun c => scalingMatrix f c i.castSucc * toHomogeneous p c) i fun j hj => ?_).trans ?_
  · show scalingMatrix f j.castSucc i.castSucc * toHomogeneous p j.castSucc = 0
    rw [scaling_cast, if_neg hj, hom_cast, Flt.zero_mul_fin (hp j)]
  · show scalingMatrix f i.castSucc i.castSucc * toHomogeneous p i.castSucc +
      scalingMatrix f (Fin.last S) i.castSucc * toHomogeneous p (Fin.last S) = f i * p i
    rw [scaling_cast, if_pos rfl, hom_cast, scaling_last, if_neg (cast_ne_last i).symm, hom_last, Flt.mul_one', Flt.add_zero']

example : ∃ p : Vec (Flt binary32.fmt) 3, (∀ i, (p i).isFinite) ∧ p ≠ 0 :=
  ⟨fun _ => 1, fun _ => trivial, by intro h; exact absurd (congrArg Flt.val (congrFun h 0)) (by decide +kernel)⟩

/-- The product of two translation matrices is exactly the translation matrix of the floating point sum of the offsets, and
the product of two scaling matrices that of the floating point products of the factors. -/
theorem C103_compose (F : Fmt) {S : ℕ} (a b : Vec (Flt F) S) (ha : ∀ i, (a i).isFinite) (hb : ∀ i, (b i).isFinite) :
    mmul (translationMatrix a) (translationMatrix b) = translationMatrix (a + b) ∧
    mmul (scalingMatrix a) (scalingMatrix b) = scalingMatrix (fun i => a i * b i) := by
  constructor
  · funext c r
    induction r using Fin.lastCases with
    | last =>
      have h0 : ∀ j : Fin S, ∀ x : Flt F, x.isFinite → translationMatrix a j.castSucc (Fin.last S) * x = 0 := fun j x hx => by
        rw [translation_cast, if_neg (cast_ne_last j), Flt.zero_mul_fin hx]
      refine (fsum_single (fun i => translationMatrix a i (Fin.last S) * translationMatrix b c i) (Fin.last S) fun j hj => ?_).trans ?_
      · induction j using Fin.lastCases with
        | last => exact absurd rfl hj
        | cast j =>
          refine h0 j _ ?_
          induction c using Fin.lastCases with
          | last => rw [translation_last]; exact hb j
          | cast c => rw [translation_cast]; split <;> trivial
      · show translationMatrix a (Fin.last S) (Fin.last S) * translationMatrix b c (Fin.last S) = _
        rw [translation_corner, Flt.one_mul']
        induction c using Fin.lastCases with
        | last => rw [translation_corner, translation_corner]
        | cast c => rw [translation_cast, translation_cast]
    | cast r =>
      refine (fsum_two (fun i => translationMatrix a i r.castSucc * translationMatrix b c i) r fun j hj => ?_).trans ?_
      · show translationMatrix a j.castSucc r.castSucc * translationMatrix b c j.castSucc = 0
        rw [translation_cast, if_neg (fun e => hj (Fin.castSucc_injective _ e)), Flt.zero_mul_fin]
        induction c using Fin.lastCases with
        | last => rw [translation_last]; exact hb j
        | cast c => rw [translation_cast]; split <;> trivial
      · show translationMatrix a r.castSucc r.castSucc * translationMatrix b c r.castSucc +
          translationMatrix a (Fin.last S) r.castSucc * translationMatrix b c (Fin.last S) = _
        rw [translation_cast, if_pos rfl, Flt.one_mul', translation_last]
        induction c using Fin.lastCases with
        | last => rw [translation_corner, translation_last, translation_last, Flt.mul_one', Flt.add_comm']; rfl
        | cast c => rw [translation_cast, translation_cast, translation_cast, if_neg (cast_ne_last c), Flt.mul_zero_fin (ha r), Flt.add_zero']
  · have hfin : ∀ (c i : Fin (S + 1)), (scalingMatrix b c i).isFinite := by
      intro c i
      induction c using Fin.lastCases with
      | last => rw [scaling_last]; split <;> trivial
      | cast c =>
        induction i using Fin.lastCases with
        | last => rw [scaling_cast_last]; trivial
        | cast i => rw [scaling_cast]; split
                    · exact hb _
                    · trivial
    funext c r
    induction r using Fin.lastCases with
    | last =>
      refine (fsum_single (fun i => scalingMatrix a i (Fin.last S) * scalingMatrix b c i) (Fin.last S) fun j hj => ?_).trans ?_
      · induction j using Fin.lastCases with
        | last => exact absurd rfl hj
        | cast j =>
          show scalingMatrix a j.castSucc (Fin.last S) * scalingMatrix b c j.castSucc = 0
          rw [scaling_cast_last, Flt.zero_mul_fin (hfin _ _)]
      · show scalingMatrix a (Fin.last S) (Fin.last S) * scalingMatrix b c (Fin.last S) = _
        rw [scaling_last, if_pos rfl, Flt.one_mul']
        induction c using Fin.lastCases with
        | last => rw [scaling_last, scaling_last]
        | cast c => rw [scaling_cast_last, scaling_cast_last]
    | cast r =>
      refine (fsum_single (fun i => scalingMatrix a i r.castSucc * scalingMatrix b c i) r.castSucc fun j hj => ?_).trans ?_
      · induction j using Fin.lastCases with
        | last =>
          show scalingMatrix a (Fin.last S) r.castSucc * scalingMatrix b c (Fin.last S) = 0
          rw [scaling_last, if_neg (cast_ne_last r).symm, Flt.zero_mul_fin (hfin _ _)]
        | cast j =>
          show scalingMatrix a j.castSucc r.castSucc * scalingMatrix b c j.castSucc = 0
          rw [scaling_cast, if_neg (fun e => hj (by rw [e])), Flt.zero_mul_fin (hfin _ _)]
      · show scalingMatrix a r.castSucc r.castSucc * scalingMatrix b c r.castSucc = _
        rw [scaling_cast, if_pos rfl]
        induction c using Fin.lastCases with
        | last => rw [scaling_last, if_neg (cast_ne_last r).symm, scaling_last, if_neg (cast_ne_last r).symm, Flt.mul_zero_fin (ha r)]
        | cast c =>
          rw [scaling_cast, scaling_cast]
          split
          · next h => subst h; rfl
          · rw [Flt.mul_zero_fin (ha r)]

example : ∃ a b : Vec (Flt binary64.fmt) 3, (∀ i, (a i).isFinite) ∧ (∀ i, (b i).isFinite) ∧ a ≠ b :=
  ⟨0, fun _ => 1, fun _ => trivial, fun _ => trivial, by intro h; exact absurd (congrArg Flt.val (congrFun h 0)) (by decide +kernel)⟩

theorem Flt.neg_one_mul' (a : Flt F) : -1 * a = -a := by rw [Flt.neg_mul', Flt.one_mul']

/-- The constant matrices for quarter turns, half turns and mirroring move finite points exactly, without any rounding. -/
theorem C103_constants (F : Fmt) (p : Vec (Flt F) 3) (hp : ∀ i, (p i).isFinite) :
    mmulPoint rot90XCw p = ![p 0, p 2, -p 1] ∧ mmulPoint rot90XCcw p = ![p 0, -p 2, p 1] ∧
    mmulPoint rot90YCw p = ![-p 2, p 1, p 0] ∧ mmulPoint rot90YCcw p = ![p 2, p 1, -p 0] ∧
    mmulPoint rot90ZCw p = ![p 1, -p 0, p 2] ∧ mmulPoint rot90ZCcw p = ![-p 1, p 0, p 2] ∧
    mmulPoint rot180X p = ![p 0, -p 1, -p 2] ∧ mmulPoint rot180Y p = ![-p 0, p 1, -p 2] ∧
    mmulPoint rot180Z p = ![-p 0, -p 1, p 2] ∧ mmulPoint mirrorX p = ![-p 0, p 1, p 2] ∧
    mmulPoint mirrorY p = ![p 0, -p 1, p 2] ∧ mmulPoint mirrorZ p = ![p 0, p 1, -p 2] := by
  have h0 := Flt.zero_mul_fin (hp 0)
  have h1 := Flt.zero_mul_fin (hp 1)
  have h2 := Flt.zero_mul_fin (hp 2)
  have key : ∀ (m : Mat (Flt F) 4 4) (q : Vec (Flt F) 3),
      (∀ r : Fin 3, 0 + m 0 r.castSucc * p 0 + m 1 r.castSucc * p 1 + m 2 r.castSucc * p 2 + m 3 r.castSucc * 1 = q r) →
      0 + m 0 3 * p 0 + m 1 3 * p 1 + m 2 3 * p 2 + m 3 3 * 1 = 1 → mmulPoint m p = q := by
    intro m q h1 h2
    funext r
    show mmulVec m (toHomogeneous p) r.castSucc / mmulVec m (toHomogeneous p) 3 = q r
    have e : ∀ r, mmulVec m (toHomogeneous p) r = 0 + m 0 r * p 0 + m 1 r * p 1 + m 2 r * p 2 + m 3 r * 1 := by
      intro r
      simp only [mmulVec, Fin.foldl_succ_last, Fin.foldl_zero]
      rfl
    rw [e, e, h1, h2, Flt.div_one']
  refine ⟨?_, ?_, ?_, ?_, ?_, ?_, ?_, ?_, ?_, ?_, ?_, ?_⟩
  all_goals
    refine key _ _ (fun r => ?_) ?_
    · fin_cases r <;>
        simp [matOfRowMajor, rot90XCw, rot90XCcw, rot90YCw, rot90YCcw, rot90ZCw, rot90ZCcw, rot180X, rot180Y, rot180Z, mirrorX, mirrorY, mirrorZ,
          Flt.zero_add', Flt.add_zero', Flt.one_mul', Flt.neg_one_mul', h0, h1, h2, Flt.mul_one', Flt.zero_mul_fin]
    · simp [matOfRowMajor, rot90XCw, rot90XCcw, rot90YCw, rot90YCcw, rot90ZCw, rot90ZCcw, rot180X, rot180Y, rot180Z, mirrorX, mirrorY, mirrorZ,
          Flt.zero_add', Flt.add_zero', Flt.one_mul', Flt.neg_one_mul', h0, h1, h2, Flt.mul_one', Flt.zero_mul_fin]

example : ∃ p : Vec (Flt binary64.fmt) 3, (∀ i, (p i).isFinite) ∧ p 0 ≠ p 1 :=
  ⟨![0, 1, 1], by intro i; fin_cases i <;> trivial, by intro h; exact absurd (congrArg Flt.val h) (by decide +kernel)⟩

end fmt

/-- Error of each component of a matrix times vector, vector times matrix and matrix times matrix product, relative to the sum
of the absolute values of the exact products. -/
theorem C103_product_error (P : BinPar) {S R C : ℕ} :
    (∀ (m : Mat (Flt P.fmt) S S) (v : Vec (Flt P.fmt) S) (r : Fin S), (mmulVec m v r).isFinite →
      |(mmulVec m v r).val - ∑ c, (m c r).val * (v c).val| ≤ ((1 + P.u) ^ S - 1) * ∑ c, |(m c r).val * (v c).val| + S * (1 + P.u) ^ S * P.eta) ∧
    (∀ (m : Mat (Flt P.fmt) S S) (v : Vec (Flt P.fmt) S) (c : Fin S), (vmulMat v m c).isFinite →
      |(vmulMat v m c).val - ∑ i, (v i).val * (m c i).val| ≤ ((1 + P.u) ^ S - 1) * ∑ i, |(v i).val * (m c i).val| + S * (1 + P.u) ^ S * P.eta) ∧
    (∀ (a : Mat (Flt P.fmt) R S) (b : Mat (Flt P.fmt) S C) (c : Fin C) (r : Fin R), (mmul a b c r).isFinite →
      |(mmul a b c r).val - ∑ i, (a i r).val * (b c i).val| ≤ ((1 + P.u) ^ S - 1) * ∑ i, |(a i r).val * (b c i).val| + S * (1 + P.u) ^ S * P.eta) := by
  refine ⟨fun m v r h => ?_, fun m v c h => ?_, fun a b c r h => ?_⟩
  · exact dot_err (fun c => m c r) v h
  · exact dot_err v (m c) h
  · exact dot_err (fun i => a i r) (b c) h

example : ∃ (m : Mat (Flt binary64.fmt) 3 3) (v : Vec (Flt binary64.fmt) 3), ∀ r, (mmulVec m v r).isFinite ∧ v r ≠ 0 := by
  refine ⟨matId 3 3, fun _ => 1, fun r => ⟨?_, fun h => ?_⟩⟩
  · rw [((C103_identity binary64.fmt).1 (fun _ => 1) fun _ => trivial).1]; trivial
  · have : (1 : ℚ) = 0 := congrArg Flt.val h
    exact absurd this one_ne_zero

end vm
