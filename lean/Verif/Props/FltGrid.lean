import Verif.Lemmas.FltGrid
import Verif.Props.Vec
import Verif.Props.FltMat
import Verif.Props.FltRayPlane

/-!
C115: points on a grid in IEEE arithmetic.  Coordinates that are integers, or multiples of a power of two, with few enough bits are
computed with exactly.
-/

set_option linter.unusedSectionVars false
set_option linter.unusedSimpArgs false

namespace vm
variable {S : ℕ}

/-- A number that is a multiple of `2 ^ g`, at most `M` steps from zero. -/
def OnGrid {P : BinPar} (g M : ℤ) (x : Flt P.fmt) : Prop := x.isFinite ∧ ∃ z : ℤ, x.val = z * 2 ^ g ∧ |z| ≤ M

theorem OnGrid.steps {P : BinPar} {ι : Type*} {g M : ℤ} {x : ι → Flt P.fmt} (h : ∀ i, OnGrid g M (x i)) :
    ∃ z : ι → ℤ, ∀ i, Gr g (x i) (z i) M := by
  choose h1 z h2 h3 using h
  exact ⟨z, fun i => ⟨h1 i, h2 i, h3 i⟩⟩

theorem gr_dot {P : BinPar} {g g' A B : ℤ} {a b : Vec (Flt P.fmt) S} {za zb : Fin S → ℤ} (ha : ∀ i, Gr g (a i) (za i) A)
    (hb : ∀ i, Gr g' (b i) (zb i) B) (hg : P.Ok (g + g')) (h : S * (A * B) < 2 ^ P.p) :
    Gr (g + g') (dot a b) (∑ i, za i * zb i) (S * (A * B)) := by
  rcases Nat.eq_zero_or_pos S with rfl | hS
  · have : dot a b = 0 := Fin.foldl_zero _ _
    rw [this]
    simpa using Gr.zero (g + g')
  have hA0 : 0 ≤ A := (abs_nonneg _).trans (ha ⟨0, hS⟩).le
  have hB0 : 0 ≤ B := (abs_nonneg _).trans (hb ⟨0, hS⟩).le
  have hAB : A * B < 2 ^ P.p := by
    have : (1 : ℤ) ≤ S := by exact_mod_cast hS
    have := mul_nonneg hA0 hB0
    nlinarith
  have e : (∑ _i : Fin S, A * B) = S * (A * B) := by rw [Finset.sum_const, Finset.card_univ, Fintype.card_fin, nsmul_eq_mul]
  have := Gr.sum hg (fun i => a i * b i) (fun i => za i * zb i) (fun _ => A * B) (fun i => (ha i).mul (hb i) hg hAB) (by rw [e]; exact h)
  rw [e] at this
  exact this

/-- The scalar product of two vectors on grids is exact if it fits. -/
theorem C115_dot (P : BinPar) (g g' A B : ℤ) (a b : Vec (Flt P.fmt) S) (ha : ∀ i, OnGrid g A (a i)) (hb : ∀ i, OnGrid g' B (b i))
    (hg : P.qmin ≤ g + g' ∧ g + g' ≤ P.qmax) (h : S * (A * B) < 2 ^ P.p) :
    (dot a b).isFinite ∧ (dot a b).val = ∑ i, (a i).val * (b i).val := by
  obtain ⟨za, ha⟩ := OnGrid.steps ha
  obtain ⟨zb, hb⟩ := OnGrid.steps hb
  have := gr_dot ha hb hg h
  refine ⟨this.fin, ?_⟩
  rw [this.val]
  push_cast
  rw [Finset.sum_mul]
  refine Finset.sum_congr rfl fun i _ => ?_
  rw [(ha i).val, (hb i).val, zpow_add₀ (by norm_num)]
  ring

/-- Adding and subtracting vectors on the same grid is exact if the result fits. -/
theorem C115_add_sub (P : BinPar) (g A B : ℤ) (a b : Vec (Flt P.fmt) S) (ha : ∀ i, OnGrid g A (a i)) (hb : ∀ i, OnGrid g B (b i))
    (hg : P.qmin ≤ g ∧ g ≤ P.qmax) (h : A + B < 2 ^ P.p) (i : Fin S) :
    OnGrid g (A + B) ((a + b) i) ∧ ((a + b) i).val = (a i).val + (b i).val ∧
    OnGrid g (A + B) ((a - b) i) ∧ ((a - b) i).val = (a i).val - (b i).val := by
  obtain ⟨za, ha⟩ := OnGrid.steps ha
  obtain ⟨zb, hb⟩ := OnGrid.steps hb
  have h1 := (ha i).add (hb i) hg h
  have h2 := (ha i).sub (hb i) hg h
  have e1 : ((a + b) i).val = _ := h1.val
  have e2 : ((a - b) i).val = _ := h2.val
  refine ⟨⟨h1.fin, _, h1.val, h1.le⟩, ?_, ⟨h2.fin, _, h2.val, h2.le⟩, ?_⟩
  · rw [e1, (ha i).val, (hb i).val]; push_cast; ring
  · rw [e2, (ha i).val, (hb i).val]; push_cast; ring

theorem gr_cross {P : BinPar} {g g' A B : ℤ} {a b : Vec (Flt P.fmt) 3} {za zb : Fin 3 → ℤ} (ha : ∀ i, Gr g (a i) (za i) A)
    (hb : ∀ i, Gr g' (b i) (zb i) B) (hg : P.Ok (g + g')) (h : 2 * (A * B) < 2 ^ P.p) (i : Fin 3) :
    Gr (g + g') (cross a b i) (cross za zb i) (2 * (A * B)) := by
  have hA0 : 0 ≤ A := (abs_nonneg _).trans (ha 0).le
  have hB0 : 0 ≤ B := (abs_nonneg _).trans (hb 0).le
  have hAB := mul_nonneg hA0 hB0
  have p := fun i j => (ha i).mul (hb j) hg (by linarith : A * B < 2 ^ P.p)
  have q := fun i j k l => ((p i j).sub (p k l) hg (by linarith)).mono (by linarith : A * B + A * B ≤ 2 * (A * B))
  fin_cases i
  · exact q 1 2 2 1
  · exact q 2 0 0 2
  · exact q 0 1 1 0

/-- The cross product of two vectors on grids is exact if it fits: for doubles with integer components up to 2²⁵. -/
theorem C115_cross (P : BinPar) (g g' A B : ℤ) (a b : Vec (Flt P.fmt) 3) (ha : ∀ i, OnGrid g A (a i)) (hb : ∀ i, OnGrid g' B (b i))
    (hg : P.qmin ≤ g + g' ∧ g + g' ≤ P.qmax) (h : 2 * (A * B) < 2 ^ P.p) (i : Fin 3) :
    (cross a b i).isFinite ∧ (cross a b i).val = cross (fun i => (a i).val) (fun i => (b i).val) i := by
  obtain ⟨za, ha⟩ := OnGrid.steps ha
  obtain ⟨zb, hb⟩ := OnGrid.steps hb
  have := gr_cross ha hb hg h i
  refine ⟨this.fin, ?_⟩
  rw [this.val]
  fin_cases i <;> simp only [cross] <;>
    · simp [cross, (ha _).val, (hb _).val, zpow_add₀]
      ring

/-- The product of matrices on grids is exact if it fits. -/
theorem C115_product (P : BinPar) {R N C : ℕ} (g g' A B : ℤ) (a : Mat (Flt P.fmt) R N) (b : Mat (Flt P.fmt) N C)
    (ha : ∀ c r, OnGrid g A (a c r)) (hb : ∀ c r, OnGrid g' B (b c r)) (hg : P.qmin ≤ g + g' ∧ g + g' ≤ P.qmax)
    (h : N * (A * B) < 2 ^ P.p) (c : Fin C) (r : Fin R) :
    (mmul a b c r).isFinite ∧ (mmul a b c r).val = ∑ i, (a i r).val * (b c i).val :=
  C115_dot P g g' A B (fun i => a i r) (b c) (fun i => ha i r) (hb c) hg h

/-- The determinant of a matrix on a grid is exact if the bound of Leibniz' formula fits. -/
theorem C115_determinant (P : BinPar) (n : ℕ) (g M : ℤ) (hM : 1 ≤ M) (m : Mat (Flt P.fmt) (n + 1) (n + 1)) (hm : ∀ c r, OnGrid g M (m c r))
    (hg : P.qmin ≤ (n + 1 : ℕ) * g ∧ (n + 1 : ℕ) * g ≤ P.qmax) (h : ((n + 1).factorial : ℤ) * M ^ (n + 1) < 2 ^ P.p) :
    (computeDeterminant n m).isFinite ∧ (computeDeterminant n m).val = Matrix.det fun r c => (m c r).val := by
  obtain ⟨z, hz⟩ := OnGrid.steps (ι := Fin (n + 1) × Fin (n + 1)) (x := fun i => m i.1 i.2) (fun i => hm _ _)
  have := Gr.det hM n hg m (fun c r => z (c, r)) (fun c r => hz (c, r)) h
  refine ⟨this.fin, ?_⟩
  rw [this.val, computeDeterminant_eq]
  have e : (Matrix.of fun r c : Fin (n + 1) => (m c r).val) = (2 : ℚ) ^ g • (toMatrix fun c r => z (c, r)).map (Int.castRingHom ℚ) := by
    ext r c
    rw [Matrix.smul_apply, Matrix.map_apply, Matrix.of_apply, (hz (c, r)).val, smul_eq_mul, mul_comm]
    rfl
  show _ = (Matrix.of fun r c : Fin (n + 1) => (m c r).val).det
  rw [e, Matrix.det_smul, Fintype.card_fin, ← RingHom.mapMatrix_apply, ← RingHom.map_det, ← zpow_natCast, ← zpow_mul, mul_comm g, mul_comm]
  rfl

/-- The adjugate of a matrix on a grid is exact if the bound of Leibniz' formula for the minors fits. -/
theorem C115_adjugate (P : BinPar) (n : ℕ) (g M : ℤ) (hM : 1 ≤ M) (m : Mat (Flt P.fmt) (n + 2) (n + 2)) (hm : ∀ c r, OnGrid g M (m c r))
    (hg : P.qmin ≤ (n + 1 : ℕ) * g ∧ (n + 1 : ℕ) * g ≤ P.qmax) (h : ((n + 1).factorial : ℤ) * M ^ (n + 1) < 2 ^ P.p) (c r : Fin (n + 2)) :
    (computeAdjugate m c r).isFinite ∧ (computeAdjugate m c r).val = (Matrix.of fun r c => (m c r).val).adjugate r c := by
  have e : (Matrix.of fun r c => (m c r).val).adjugate r c = computeAdjugate (fun c r => (m c r).val) c r := by
    have := computeAdjugate_eq (fun c r => (m c r).val)
    exact (congrFun (congrFun this r) c).symm
  rw [e]
  obtain ⟨z, hz⟩ := OnGrid.steps (ι := Fin (n + 2) × Fin (n + 2)) (x := fun i => m i.1 i.2) (fun i => hm _ _)
  have hd := Gr.det hM n hg (extractMinor m c r) (extractMinor (fun c r => z (c, r)) c r) (fun c' r' => hz (_, _)) h
  have hd' := C115_determinant P n g M hM (extractMinor m c r) (fun c r => hm _ _) hg h
  have hf : Gr 0 (if (r.val + c.val) % 2 = 0 then (1 : Flt P.fmt) else -1) (if (r.val + c.val) % 2 = 0 then 1 else -1) 1 := by
    split_ifs
    · exact Gr.one
    · exact Gr.one.neg
  have hp := hf.mul hd (by rw [zero_add]; exact hg) (by rw [one_mul]; exact h)
  refine ⟨hp.fin, ?_⟩
  have e1 : (computeAdjugate m c r).val = _ := hp.val
  have e2 : computeDeterminant n (extractMinor (fun c r => (m c r).val) c r) = (computeDeterminant n (extractMinor m c r)).val := by
    rw [hd'.2, computeDeterminant_eq]; rfl
  rw [e1]
  unfold computeAdjugate
  rw [e2, hd.val, zero_add]
  push_cast
  simp only [mul_assoc]

/-- The squared distance of points on a grid is exact if it fits. -/
theorem C115_squared_distance (P : BinPar) (g M : ℤ) (a b : Vec (Flt P.fmt) S) (ha : ∀ i, OnGrid g M (a i)) (hb : ∀ i, OnGrid g M (b i))
    (hg : P.qmin ≤ 2 * g ∧ 2 * g ≤ P.qmax) (h : 4 * S * M ^ 2 < 2 ^ P.p) :
    (squaredDistance a b).isFinite ∧ (squaredDistance a b).val = ∑ i, ((a i).val - (b i).val) ^ 2 := by
  rcases Nat.eq_zero_or_pos S with rfl | hS
  · have : squaredDistance a b = 0 := by
      unfold squaredDistance squaredLength dot
      exact Fin.foldl_zero _ _
    rw [this]
    exact ⟨Flt.zero_finite, by rw [Flt.zero_val]; simp⟩
  have hM : 0 ≤ M := by
    obtain ⟨-, z, -, hz⟩ := ha ⟨0, hS⟩
    exact (abs_nonneg _).trans hz
  have hS' : (1 : ℤ) ≤ S := by exact_mod_cast hS
  have hp : (1 : ℤ) < 2 ^ P.p := one_lt_pow₀ (by norm_num) (by have := P.hp; omega)
  have hM2 : M + M < 2 ^ P.p := by
    rcases hM.eq_or_lt with h0 | h0
    · rw [← h0]; linarith
    · have h1 : 1 ≤ M := h0
      have h2 : 2 * M ≤ 4 * M ^ 2 := by nlinarith
      have h3 : 0 ≤ 4 * M ^ 2 := by positivity
      nlinarith
  have hg1 : P.Ok g := by
    have := BinPar.Ok.mul (P := P) (n := 2) (k := 1) (g := g) (by exact_mod_cast hg) (by norm_num)
    simpa using this
  have hd := C115_add_sub P g M M a b ha hb hg1 hM2
  have := C115_dot P g g (M + M) (M + M) (a - b) (a - b) (fun i => (hd i).2.2.1) (fun i => (hd i).2.2.1) (by rw [← two_mul]; exact hg)
    (by
      have e : (S : ℤ) * ((M + M) * (M + M)) = 4 * S * M ^ 2 := by ring
      rw [e]; exact h)
  refine ⟨this.1, this.2.trans (Finset.sum_congr rfl fun i _ => ?_)⟩
  rw [(hd i).2.2.2, sq]

/-! ### is_colinear -/

theorem isColinear_dots {T : Type*} [Cmp T] [Zero T] [Neg T] [Add T] [Sub T] [Mul T] (a b c : Vec T S) (e : T) :
    isColinear a b c e = isZero (dot (a - c) (b - a) * dot (a - c) (b - a) - dot (a - c) (a - c) * dot (b - a) (b - a)) e := by
  have gen : ∀ (n : ℕ) (f g h : Fin n → T) (x y z : T),
      Fin.foldl n (fun (acc : T × T × T) i => (acc.1 + f i, acc.2.1 + g i, acc.2.2 + h i)) (x, y, z)
        = (Fin.foldl n (fun acc i => acc + f i) x, Fin.foldl n (fun acc i => acc + g i) y, Fin.foldl n (fun acc i => acc + h i) z) := by
    intro n
    induction n with
    | zero => intro f g h x y z; simp
    | succ n ih =>
      intro f g h x y z
      rw [Fin.foldl_succ, ih]
      simp only [Fin.foldl_succ]
  unfold isColinear
  have := gen S (fun i => (a i - c i) * (b i - a i)) (fun i => (a i - c i) * (a i - c i))
    (fun i => (b i - a i) * (b i - a i)) 0 0 0
  simp only [this]
  rfl

/-- The exact scalar products in the test. -/
theorem gr_colinear {P : BinPar} {g M : ℤ} {a b c : Vec (Flt P.fmt) S} (ha : ∀ i, OnGrid g M (a i)) (hb : ∀ i, OnGrid g M (b i))
    (hc : ∀ i, OnGrid g M (c i)) (hg : P.Ok (2 * g)) (h : 4 * S * M ^ 2 < 2 ^ P.p) :
    ∃ j k l : ℤ, Gr (2 * g) (dot (a - c) (b - a)) j (4 * S * M ^ 2) ∧ Gr (2 * g) (dot (a - c) (a - c)) k (4 * S * M ^ 2) ∧
      Gr (2 * g) (dot (b - a) (b - a)) l (4 * S * M ^ 2) ∧
      (∑ i, ((a i).val - (c i).val) * ((b i).val - (a i).val)) = j * 2 ^ (2 * g) ∧
      (∑ i, ((a i).val - (c i).val) * ((a i).val - (c i).val)) = k * 2 ^ (2 * g) ∧
      (∑ i, ((b i).val - (a i).val) * ((b i).val - (a i).val)) = l * 2 ^ (2 * g) := by
  obtain ⟨za, ha⟩ := OnGrid.steps ha
  obtain ⟨zb, hb⟩ := OnGrid.steps hb
  obtain ⟨zc, hc⟩ := OnGrid.steps hc
  have e2 : g + g = 2 * g := by ring
  have hg1 : P.Ok g := by
    have := BinPar.Ok.mul (n := 2) (k := 1) (g := g) (by simpa using hg) (by norm_num)
    simpa using this
  have hd : ∀ (x y : Vec (Flt P.fmt) S) (zx zy : Fin S → ℤ), (∀ i, Gr g (x i) (zx i) M) → (∀ i, Gr g (y i) (zy i) M) →
      ∀ i, Gr g ((x - y) i) (zx i - zy i) (2 * M) := by
    intro x y zx zy hx hy i
    have hM : 0 ≤ M := (abs_nonneg _).trans (hx i).le
    have hS : (1 : ℤ) ≤ S := by exact_mod_cast i.pos
    have hp : (1 : ℤ) < 2 ^ P.p := one_lt_pow₀ (by norm_num) (by have := P.hp; omega)
    have hM2 : M + M < 2 ^ P.p := by
      rcases hM.eq_or_lt with h0 | h0
      · rw [← h0]; linarith
      · have h1 : 1 ≤ M := h0
        have h2 : 2 * M ≤ 4 * M ^ 2 := by nlinarith
        have h3 : 0 ≤ 4 * M ^ 2 := by positivity
        nlinarith
    exact ((hx i).sub (hy i) hg1 hM2).mono (by linarith)
  have hdd : ∀ (x y : Vec (Flt P.fmt) S) (zx zy : Fin S → ℤ), (∀ i, Gr g (x i) (zx i) (2 * M)) → (∀ i, Gr g (y i) (zy i) (2 * M)) →
      Gr (2 * g) (dot x y) (∑ i, zx i * zy i) (4 * S * M ^ 2) := by
    intro x y zx zy hx hy
    have e : (S : ℤ) * (2 * M * (2 * M)) = 4 * S * M ^ 2 := by ring
    have := gr_dot hx hy (by rw [e2]; exact hg) (by rw [e]; exact h)
    rw [e] at this
    exact this.cast e2
  have hv : ∀ (x y u v : Vec (Flt P.fmt) S) (zx zy zu zv : Fin S → ℤ), (∀ i, Gr g (x i) (zx i) M) → (∀ i, Gr g (y i) (zy i) M) →
      (∀ i, Gr g (u i) (zu i) M) → (∀ i, Gr g (v i) (zv i) M) →
      (∑ i, ((x i).val - (y i).val) * ((u i).val - (v i).val)) = ((∑ i, (zx i - zy i) * (zu i - zv i) : ℤ) : ℚ) * 2 ^ (2 * g) := by
    intro x y u v zx zy zu zv hx hy hu hv
    push_cast
    rw [Finset.sum_mul]
    refine Finset.sum_congr rfl fun i _ => ?_
    rw [(hx i).val, (hy i).val, (hu i).val, (hv i).val, ← e2, zpow_add₀ (by norm_num)]
    ring
  exact ⟨_, _, _, hdd _ _ _ _ (hd _ _ _ _ ha hc) (hd _ _ _ _ hb ha), hdd _ _ _ _ (hd _ _ _ _ ha hc) (hd _ _ _ _ ha hc),
    hdd _ _ _ _ (hd _ _ _ _ hb ha) (hd _ _ _ _ hb ha), hv _ _ _ _ _ _ _ _ ha hc hb ha, hv _ _ _ _ _ _ _ _ ha hc ha hc,
    hv _ _ _ _ _ _ _ _ hb ha hb ha⟩

/-- `is_colinear` of points on a grid is exact if the squares of the scalar products fit. -/
theorem C115_colinear (P : BinPar) (g M : ℤ) (a b c : Vec (Flt P.fmt) S) (e : Flt P.fmt) (ha : ∀ i, OnGrid g M (a i))
    (hb : ∀ i, OnGrid g M (b i)) (hc : ∀ i, OnGrid g M (c i)) (hg : P.qmin ≤ 4 * g ∧ 4 * g ≤ P.qmax) (h : 32 * S ^ 2 * M ^ 4 < 2 ^ P.p)
    (he : e.isFinite) (he0 : 0 ≤ e.val) :
    isColinear a b c e = isColinear (fun i => (a i).val) (fun i => (b i).val) (fun i => (c i).val) e.val := by
  have hg2 : P.Ok (2 * g) := by
    have := BinPar.Ok.mul (n := 4) (k := 2) (g := g) (show P.Ok (((4 : ℕ) : ℤ) * g) by exact_mod_cast hg) (by norm_num)
    simpa using this
  have h4 : 4 * S * M ^ 2 < 2 ^ P.p := by
    have hp : (1 : ℤ) < 2 ^ P.p := one_lt_pow₀ (by norm_num) (by have := P.hp; omega)
    have h0 : 0 ≤ S * M ^ 2 := by positivity
    rcases h0.eq_or_lt with h1 | h1
    · rw [mul_assoc, ← h1]; linarith
    · have : 4 * (S * M ^ 2) ≤ 32 * (S * M ^ 2) ^ 2 := by nlinarith
      have e : 32 * (S * M ^ 2) ^ 2 = 32 * S ^ 2 * M ^ 4 := by ring
      rw [mul_assoc]
      linarith
  obtain ⟨j, k, l, hj, hk, hl, ej, ek, el⟩ := gr_colinear ha hb hc hg2 h4
  have e4 : 2 * g + 2 * g = 4 * g := by ring
  have eb : (4 * S * M ^ 2) * (4 * S * M ^ 2) + (4 * S * M ^ 2) * (4 * S * M ^ 2) = 32 * (S : ℤ) ^ 2 * M ^ 4 := by ring
  have hsq : 0 ≤ (4 * S * M ^ 2) * (4 * (S : ℤ) * M ^ 2) := mul_self_nonneg _
  have hr := (hj.mul hj (by rw [e4]; exact hg) (by linarith)).sub (hk.mul hl (by rw [e4]; exact hg) (by linarith)) (by rw [e4]; exact hg)
    (by rw [eb]; exact h)
  rw [isColinear_dots, isZero_flt hr.fin he he0, isColinear_exact, isZero_exact_nonneg _ he0, hr.val, dot_eq_sum, dot_eq_sum, dot_eq_sum]
  simp only [Pi.sub_apply]
  rw [ej, ek, el, zpow_add₀ (by norm_num)]
  congr 3
  push_cast
  ring

/-- Points of a grid on a common line are always reported as colinear. -/
theorem C115_colinear_reported (P : BinPar) (g M : ℤ) (a b c : Vec (Flt P.fmt) S) (e : Flt P.fmt) (ha : ∀ i, OnGrid g M (a i))
    (hb : ∀ i, OnGrid g M (b i)) (hc : ∀ i, OnGrid g M (c i)) (hg : P.qmin ≤ 2 * g ∧ P.p + 4 * g < P.qmax) (h : 4 * S * M ^ 2 < 2 ^ P.p)
    (he : e.isFinite) (he0 : 0 ≤ e.val)
    (hcol : Collinear ℚ ({fun i => (a i).val, fun i => (b i).val, fun i => (c i).val} : Set (Fin S → ℚ))) : isColinear a b c e = true := by
  have hp := P.hp
  have hmax := P.hmax
  obtain ⟨j, k, l, hj, hk, hl, ej, ek, el⟩ := gr_colinear ha hb hc ⟨hg.1, by omega⟩ h
  rw [← C21_isColinear, isColinear_exact, isZero_zero_exact, decide_eq_true_eq, dot_eq_sum, dot_eq_sum, dot_eq_sum] at hcol
  simp only [Pi.sub_apply] at hcol
  rw [ej, ek, el, sub_eq_zero] at hcol
  rw [← hj.val, ← hk.val, ← hl.val] at hcol
  have hfin : (dot (a - c) (b - a) * dot (a - c) (b - a)).isFinite := by
    rw [Flt.mul_eq hj.fin hj.fin, Flt.round_finite]
    have hb : |(dot (a - c) (b - a)).val * (dot (a - c) (b - a)).val| ≤ 2 ^ (2 * P.p + 4 * g : ℤ) := by
      rw [hj.val, abs_mul]
      have h1 : |(j : ℚ) * 2 ^ (2 * g)| ≤ 2 ^ (P.p + 2 * g : ℤ) := by
        have h3 : |(j : ℚ)| ≤ 2 ^ P.p := by exact_mod_cast hj.le.trans h.le
        rw [abs_mul, abs_of_pos (zpow_pos (by norm_num : (0 : ℚ) < 2) (2 * g)), zpow_add₀ (by norm_num), zpow_natCast]
        exact mul_le_mul_of_nonneg_right h3 (zpow_pos (by norm_num : (0 : ℚ) < 2) _).le
      calc |(j : ℚ) * 2 ^ (2 * g)| * |(j : ℚ) * 2 ^ (2 * g)| ≤ 2 ^ (P.p + 2 * g : ℤ) * 2 ^ (P.p + 2 * g : ℤ) :=
            mul_le_mul h1 h1 (abs_nonneg _) (zpow_pos (by norm_num) _).le
        _ = 2 ^ (2 * P.p + 4 * g : ℤ) := by rw [← zpow_add₀ (by norm_num)]; congr 1; ring
    have hr : P.Rep ((2 : ℚ) ^ max (2 * P.p + 4 * g : ℤ) 0) :=
      ⟨1, _, by rw [Int.cast_one, one_mul], by rw [abs_one]; exact one_lt_pow₀ (by norm_num) (by omega),
        le_trans (by have := P.hmin; omega) (le_max_right _ _)⟩
    have hb' := abs_le.1 (hb.trans (zpow_le_zpow_right₀ (by norm_num) (le_max_left (2 * P.p + 4 * g : ℤ) 0)))
    refine lt_of_le_of_lt (abs_le.2 ⟨P.le_fl_of_rep hr.neg hb'.1, P.fl_le_of_rep hr hb'.2⟩) ?_
    exact zpow_lt_zpow_right₀ (by norm_num) (max_lt (by omega) (by omega))
  have e1 : dot (a - c) (b - a) * dot (a - c) (b - a) = dot (a - c) (a - c) * dot (b - a) (b - a) := by
    rw [Flt.mul_eq hj.fin hj.fin, Flt.mul_eq hk.fin hl.fin, hcol]
  have hz : dot (a - c) (b - a) * dot (a - c) (b - a) - dot (a - c) (a - c) * dot (b - a) (b - a) = 0 := by
    rw [← e1, Flt.sub_eq hfin hfin, sub_self]
    exact Flt.round_of_rep P.fmt.rep_zero
  rw [isColinear_dots, hz, isZero_flt Flt.zero_finite he he0, Flt.zero_val, abs_zero]
  exact decide_eq_true he0

/-- A vector with integer components. -/
def intVec (P : BinPar) (z : Fin S → ℤ) : Vec (Flt P.fmt) S := fun i => Flt.round (z i)

theorem gr_int {P : BinPar} (z : Fin S → ℤ) {M : ℤ} (h : ∀ i, |z i| ≤ M) (hM : M ≤ 2 ^ P.p) (i : Fin S) : Gr 0 (intVec P z i) (z i) M := by
  obtain ⟨h1, h2⟩ := Flt.int_finite (P := P) ((h i).trans hM)
  exact ⟨h1, by rw [zpow_zero, mul_one]; exact h2, h i⟩

theorem Gr.onGrid {P : BinPar} {g z M : ℤ} {x : Flt P.fmt} (h : Gr g x z M) : OnGrid g M x := ⟨h.fin, z, h.val, h.le⟩

/-- Above that bound points with integer coordinates that are not on a common line are reported as colinear, for every tolerance. -/
theorem C115_colinear_fails : ∃ a b c : Vec (Flt binary64.fmt) 3, (∀ i, OnGrid 0 17711 (a i) ∧ OnGrid 0 17711 (b i) ∧ OnGrid 0 17711 (c i)) ∧
    ¬ Collinear ℚ ({fun i => (a i).val, fun i => (b i).val, fun i => (c i).val} : Set (Fin 3 → ℚ)) ∧
    ∀ e : Flt binary64.fmt, e.isFinite → 0 ≤ e.val → isColinear a b c e = true := by
  have ha := gr_int (P := binary64) (![0, 0, 0] : Fin 3 → ℤ) (M := 17711) (fun i => by fin_cases i <;> norm_num) (by norm_num [binary64])
  have hb := gr_int (P := binary64) (![10946, 6765, 0] : Fin 3 → ℤ) (M := 17711) (fun i => by fin_cases i <;> norm_num) (by norm_num [binary64])
  have hc := gr_int (P := binary64) (![17711, 10946, 0] : Fin 3 → ℤ) (M := 17711) (fun i => by fin_cases i <;> norm_num) (by norm_num [binary64])
  refine ⟨_, _, _, fun i => ⟨(ha i).onGrid, (hb i).onGrid, (hc i).onGrid⟩, ?_, ?_⟩
  · rw [← C21_isColinear, isColinear_exact, isZero_zero_exact, decide_eq_true_eq, dot_eq_sum, dot_eq_sum, dot_eq_sum]
    simp only [Pi.sub_apply, (ha _).val, (hb _).val, (hc _).val]
    norm_num [Fin.sum_univ_succ]
  · intro e he he0
    obtain ⟨j, k, l, hj, hk, hl, ej, ek, el⟩ := gr_colinear (g := 0) (M := 17711) (fun i => (ha i).onGrid) (fun i => (hb i).onGrid)
      (fun i => (hc i).onGrid) (by norm_num [binary64, BinPar.Ok]) (by norm_num [binary64])
    simp only [(ha _).val, (hb _).val, (hc _).val] at ej ek el
    have vj := hj.val
    have vk := hk.val
    have vl := hl.val
    rw [← ej] at vj
    rw [← ek] at vk
    rw [← el] at vl
    norm_num [Fin.sum_univ_succ] at vj vk vl
    have f1 : binary64.fl (-267914296 * -267914296) = (8972258750146952 : ℤ) * 2 ^ (3 : ℤ) :=
      BinPar.fl_eval (P := binary64) 3 8972258750146952 (by norm_num [binary64]) (by norm_num [binary64, abs_of_pos])
        (by norm_num [binary64, abs_of_pos]) (by norm_num)
    have f2 : binary64.fl (433494437 * 165580141) = (8972258750146952 : ℤ) * 2 ^ (3 : ℤ) :=
      BinPar.fl_eval (P := binary64) 3 8972258750146952 (by norm_num [binary64]) (by norm_num [binary64, abs_of_pos])
        (by norm_num [binary64, abs_of_pos]) (by norm_num [abs_of_pos])
    have hbd : |((8972258750146952 : ℤ) : ℚ) * 2 ^ (3 : ℤ)| < binary64.bound := by
      have h1 : (2 : ℚ) ^ (56 : ℤ) ≤ binary64.bound := zpow_le_zpow_right₀ (by norm_num) (by norm_num [binary64])
      refine lt_of_lt_of_le ?_ h1
      norm_num [abs_of_pos]
    rw [isColinear_dots, Flt.mul_eq hj.fin hj.fin, Flt.mul_eq hk.fin hl.fin, vj, vk, vl]
    have g1 : (Flt.round (-267914296 * -267914296) : Flt binary64.fmt).isFinite := Flt.round_finite.2 (by rw [f1]; exact hbd)
    have g2 : (Flt.round (433494437 * 165580141) : Flt binary64.fmt).isFinite := Flt.round_finite.2 (by rw [f2]; exact hbd)
    have g3 : (Flt.round (-267914296 * -267914296) : Flt binary64.fmt) = Flt.round (433494437 * 165580141) :=
      Flt.ext g1 g2 (by rw [Flt.round_val g1, Flt.round_val g2, f1, f2])
    rw [g3, Flt.sub_eq g2 g2, sub_self, Flt.round_of_rep binary64.fmt.rep_zero]
    have hz := isZero_flt (P := binary64) Flt.zero_finite he he0
    rw [Flt.zero_val, abs_zero] at hz
    exact hz.trans (decide_eq_true he0)

/-! The hypotheses are met by vectors and matrices of doubles with integer components, and on a grid of eighths. -/

theorem int_onGrid (z : Fin S → ℤ) {M : ℤ} (h : ∀ i, |z i| ≤ M) (hM : M ≤ 2 ^ 53) (i : Fin S) : OnGrid 0 M (intVec binary64 z i) :=
  (gr_int (P := binary64) z h hM i).onGrid

example : (dot (intVec binary64 ![30000000, -2, 5]) (intVec binary64 ![20000000, 7, 11])).val = 600000000000041 := by
  have ha := gr_int (P := binary64) ![30000000, -2, 5] (M := 30000000) (fun i => by fin_cases i <;> norm_num) (by norm_num [binary64])
  have hb := gr_int (P := binary64) ![20000000, 7, 11] (M := 30000000) (fun i => by fin_cases i <;> norm_num) (by norm_num [binary64])
  rw [(C115_dot binary64 0 0 30000000 30000000 _ _ (fun i => (ha i).onGrid) (fun i => (hb i).onGrid) (by norm_num [binary64])
    (by norm_num [binary64])).2]
  simp only [(ha _).val, (hb _).val]
  norm_num [Fin.sum_univ_succ]

example : ∃ x : Flt binary64.fmt, OnGrid (-3) (2 ^ 20) x ∧ x.val = 12345 / 8 := by
  have := Gr.round (P := binary64) (g := -3) (z := 12345) (B := 2 ^ 20) (q := 12345 / 8) (by norm_num [binary64, BinPar.Ok]) (by norm_num)
    (by norm_num) (by norm_num [binary64])
  exact ⟨_, this.onGrid, by rw [this.val]; norm_num⟩

/-- On a grid of eighths with coordinates up to 2¹⁷ all bounds but that of `C115_colinear` are met. -/
example : (∀ g : ℤ, g = -3 → binary64.qmin ≤ g ∧ g ≤ binary64.qmax ∧ binary64.qmin ≤ 2 * g ∧ binary64.p + 4 * g < binary64.qmax) ∧
    2 * (2 ^ 20 * 2 ^ 20) < 2 ^ binary64.p ∧ 4 * 3 * (2 ^ 20) ^ 2 < 2 ^ binary64.p ∧
    ((2 + 1).factorial : ℤ) * (2 ^ 16) ^ (2 + 1) < 2 ^ binary64.p ∧ 32 * 3 ^ 2 * 2000 ^ 4 < 2 ^ binary64.p := by
  refine ⟨?_, ?_, ?_, ?_, ?_⟩ <;> norm_num [binary64, Nat.factorial]

example : (computeDeterminant 2 (fun c => intVec binary64 (![![1000, 3, 0], ![-2, 500, 1], ![5, 0, 600]] c))).val = 300003615 := by
  have hz := fun c : Fin 3 => gr_int (P := binary64) (![![1000, 3, 0], ![-2, 500, 1], ![5, 0, 600]] c : Fin 3 → ℤ) (M := 1000)
    (fun i => by fin_cases c <;> fin_cases i <;> norm_num) (by norm_num [binary64])
  rw [(C115_determinant binary64 2 0 1000 (by norm_num) _ (fun c r => (hz c r).onGrid) (by norm_num [binary64])
    (by norm_num [binary64, Nat.factorial])).2]
  refine (Matrix.det_fin_three _).trans ?_
  simp only [(hz _ _).val, zpow_zero, mul_one]
  norm_cast

end vm
