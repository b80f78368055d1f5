import Verif.Lemmas.FltTransform
import Verif.Props.FltInterp

/-! # C119: transforming boxes in IEEE arithmetic

`P` is an arbitrary binary format with rounding to nearest, ties to even; `binary32` and `binary64` are instances. -/

set_option linter.unusedSectionVars false
set_option linter.unusedSimpArgs false

namespace vm
open BBox BinPar
variable {P : BinPar} {S : ℕ}

/-! ### Transforming boxes -/

/-- For every matrix that moves the eight vertices that `vertices` returns to finite points, `transform` is the smallest box that contains the
moved points. -/
theorem C119_transform_vertices (b : BBox (Flt P.fmt) 3) (m : Mat (Flt P.fmt) 4 4) (hf : ∀ v ∈ b.vertices, ∀ i, (mmulPoint m v i).isFinite) :
    (b.transform m).isValid = true ∧ (∀ v ∈ b.vertices, (b.transform m).contains (mmulPoint m v) = true) ∧
    ∀ i, (∃ v ∈ b.vertices, (b.transform m).min i = mmulPoint m v i) ∧ ∃ v ∈ b.vertices, (b.transform m).max i = mmulPoint m v i := by
  obtain ⟨h1, h2, h3⟩ := builderRun_points (mmulPoint m b.max) ((b.vertices.tail).map (mmulPoint m)) (by
    intro w hw
    rcases List.mem_cons.1 hw with rfl | hw
    · exact hf _ (by simp [vertices])
    · obtain ⟨v, hv, rfl⟩ := List.mem_map.1 hw
      exact hf v (List.mem_of_mem_tail hv))
  have e : builderRun ((mmulPoint m b.max :: (b.vertices.tail).map (mmulPoint m)).map Add'.point) = b.transform m := rfl
  have em : mmulPoint m b.max :: (b.vertices.tail).map (mmulPoint m) = b.vertices.map (mmulPoint m) := rfl
  rw [e] at h1 h2 h3
  rw [em] at h2 h3
  refine ⟨?_, ?_, fun i => ⟨?_, ?_⟩⟩
  · unfold isValid isValidPair
    rw [List.all_eq_true]
    intro i _
    rw [Flt.lt_val (h1.2.1 i) (h1.1 i), decide_eq_false (not_lt.2 (h1.2.2 i))]; rfl
  · intro v hv
    exact (contains_flt h1 _ (hf v hv)).2 (h2 _ (List.mem_map_of_mem hv))
  · obtain ⟨w, hw, h⟩ := (h3 i).1
    obtain ⟨v, hv, rfl⟩ := List.mem_map.1 hw
    exact ⟨v, hv, h⟩
  · obtain ⟨w, hw, h⟩ := (h3 i).2
    obtain ⟨v, hv, rfl⟩ := List.mem_map.1 hw
    exact ⟨v, hv, h⟩

/-- Points of the box are moved into the transformed box, without any tolerance, by every affine matrix, provided that the size of the box is
exact and the moved corners are finite. -/
theorem C119_transform_affine (b : BBox (Flt P.fmt) 3) (hb : FiniteBox b) (he : ExactSize b) (m : Mat (Flt P.fmt) 4 4)
    (hm : ∀ c, m c 3 = if c = 3 then 1 else 0) (hf : ∀ v ∈ b.vertices, ∀ i, (mmulPoint m v i).isFinite) (p : Vec (Flt P.fmt) 3)
    (hp : ∀ i, (p i).isFinite) (hc : b.contains p = true) :
    (∀ i, (mmulPoint m p i).isFinite) ∧ (b.transform m).contains (mmulPoint m p) = true := by
  obtain ⟨l, hl, -, hall⟩ := C100_vertices_exact b hb.1 hb.2.1 he
  obtain ⟨hv, hcon, hatt⟩ := C119_transform_vertices b m hf
  have hcor : ∀ c, b.corner c ∈ b.vertices := fun c => by rw [hl]; exact List.mem_map_of_mem (hall c)
  have hcf : ∀ c i, (b.corner c i).isFinite := by
    intro c i
    show (if c i = Corner.min then b.min i else b.max i).isFinite
    split_ifs
    · exact hb.1 i
    · exact hb.2.1 i
  have hpc := (contains_flt hb p hp).1 hc
  have main : ∀ i : Fin 3, ∃ c d : Fin 3 → Corner, (mmulPoint m p i).isFinite ∧ (mmulPoint m (b.corner c) i).val ≤ (mmulPoint m p i).val ∧
      (mmulPoint m p i).val ≤ (mmulPoint m (b.corner d) i).val := by
    intro i
    refine ⟨fun j => if 0 ≤ (m j.castSucc i.castSucc).val then Corner.min else Corner.max,
      fun j => if 0 ≤ (m j.castSucc i.castSucc).val then Corner.max else Corner.min, ?_⟩
    have g1 := hf _ (hcor fun j => if 0 ≤ (m j.castSucc i.castSucc).val then Corner.min else Corner.max) i
    have g2 := hf _ (hcor fun j => if 0 ≤ (m j.castSucc i.castSucc).val then Corner.max else Corner.min) i
    rw [mmulPoint_affineF hm (hcf _)] at g1 g2 ⊢
    rw [mmulPoint_affineF hm hp, mmulPoint_affineF hm (hcf _)]
    refine fsum_sandwich (fun c => m c i.castSucc) _ (toHomogeneous p) _ ?_ ?_ g1 g2
    · intro k
      refine Fin.lastCases ?_ (fun j => ?_) k
      · rw [show toHomogeneous p (Fin.last 3) = 1 from Fin.snoc_last _ _]; exact Flt.one_finite
      · rw [show toHomogeneous p j.castSucc = p j from Fin.snoc_castSucc _ _ _]; exact hp j
    · intro k
      refine Fin.lastCases ?_ (fun j => ?_) k
      · have t : ∀ q : Vec (Flt P.fmt) 3, toHomogeneous q (Fin.last 3) = 1 := fun q => Fin.snoc_last _ _
        rw [t, t, t]; exact ⟨le_refl _, le_refl _⟩
      · have t : ∀ q : Vec (Flt P.fmt) 3, toHomogeneous q j.castSucc = q j := fun q => Fin.snoc_castSucc _ _ _
        rw [t, t, t]
        simp only [corner]
        by_cases h : 0 ≤ (m j.castSucc i.castSucc).val
        · simp only [if_pos h, if_true, reduceCtorEq, if_false]
          exact ⟨mul_le_mul_of_nonneg_left (hpc j).1 h, mul_le_mul_of_nonneg_left (hpc j).2 h⟩
        · simp only [if_neg h, if_true, reduceCtorEq, if_false]
          exact ⟨mul_le_mul_of_nonpos_left (hpc j).2 (not_le.1 h).le, mul_le_mul_of_nonpos_left (hpc j).1 (not_le.1 h).le⟩
  have hfp : ∀ i, (mmulPoint m p i).isFinite := fun i => by
    obtain ⟨c, d, h, -⟩ := main i
    exact h
  have hB : FiniteBox (b.transform m) := (transform_finite b m hf)
  refine ⟨hfp, (contains_flt hB _ hfp).2 fun i => ?_⟩
  obtain ⟨c, d, -, h1, h2⟩ := main i
  exact ⟨((contains_flt hB _ (hf _ (hcor c))).1 (hcon _ (hcor c)) i).1.trans h1,
    h2.trans ((contains_flt hB _ (hf _ (hcor d))).1 (hcon _ (hcor d)) i).2⟩

/-- A quarter turn meets the hypotheses for the unit cube. -/
example : ∃ (b : BBox (Flt binary64.fmt) 3) (m : Mat (Flt binary64.fmt) 4 4), FiniteBox b ∧ ExactSize b ∧ b.isEmpty = false ∧
    (∀ c, m c 3 = if c = 3 then 1 else 0) ∧ (∀ v ∈ b.vertices, ∀ i, (mmulPoint m v i).isFinite) ∧ ∃ p ∈ b.vertices, mmulPoint m p ≠ p := by
  have hb : FiniteBox (⟨0, fun _ => 1⟩ : BBox (Flt binary64.fmt) 3) :=
    ⟨fun _ => trivial, fun _ => trivial, fun _ => by show (0 : ℚ) ≤ 1; norm_num⟩
  have he : ExactSize (⟨0, fun _ => 1⟩ : BBox (Flt binary64.fmt) 3) :=
    fun _ => by show binary64.fmt.rep (1 - 0); rw [sub_zero]; exact binary64.fmt.rep_one
  obtain ⟨l, hl, -, -⟩ := C100_vertices_exact _ hb.1 hb.2.1 he
  have hf : ∀ v ∈ (⟨0, fun _ => 1⟩ : BBox (Flt binary64.fmt) 3).vertices, ∀ i, (v i).isFinite := by
    intro v hv i
    rw [hl] at hv
    obtain ⟨c, -, rfl⟩ := List.mem_map.1 hv
    simp only [corner]
    split_ifs
    · exact hb.1 i
    · exact hb.2.1 i
  refine ⟨_, rot90ZCw, hb, he, by decide +kernel, ?_, ?_, fun _ => 1, by simp [vertices], ?_⟩
  · intro c; fin_cases c <;> rfl
  · intro v hv i
    rw [(C103_constants _ v (hf v hv)).2.2.2.2.1]
    fin_cases i
    · exact hf v hv 1
    · exact Flt.neg_finite.2 (hf v hv 0)
    · exact hf v hv 2
  · rw [(C103_constants _ (fun _ => 1) fun _ => trivial).2.2.2.2.1]
    intro h
    exact absurd (congrArg Flt.val (congrFun h 1)) (by decide +kernel)

/-- The identity matrix never makes a box smaller, and does not change it if its size is exact. -/
theorem C119_transform_identity (b : BBox (Flt P.fmt) 3) (hb : FiniteBox b) (hf : ∀ v ∈ b.vertices, ∀ i, (v i).isFinite) :
    (b.transform (matId 4 4)).containsBox b = true ∧ (ExactSize b → b.transform (matId 4 4) = b) := by
  have hid := fun v hv => ((C103_identity P.fmt (S := 3)).2.1 v (hf v hv)).1
  have hf' : ∀ v ∈ b.vertices, ∀ i, (mmulPoint (matId 4 4) v i).isFinite := by
    intro v hv i
    rw [hid v hv]; exact hf v hv i
  obtain ⟨-, hcon, hatt⟩ := C119_transform_vertices b (matId 4 4) hf'
  have hB := transform_finite b (matId 4 4) hf'
  have hmin : b.min ∈ b.vertices := by simp [vertices]
  have hmax : b.max ∈ b.vertices := by simp [vertices]
  have c1 := hcon _ hmin
  have c2 := hcon _ hmax
  rw [hid _ hmin] at c1
  rw [hid _ hmax] at c2
  have c1 := (contains_flt hB _ hb.1).1 c1
  have c2 := (contains_flt hB _ hb.2.1).1 c2
  constructor
  · unfold containsBox
    rw [List.all_eq_true]
    intro i _
    rw [Flt.lt_val (hb.1 i) (hB.1 i), Flt.lt_val (hB.2.1 i) (hb.2.1 i), decide_eq_false (not_lt.2 (c1 i).1),
      decide_eq_false (not_lt.2 (c2 i).2)]
    rfl
  · intro he
    obtain ⟨l, hl, -, -⟩ := C100_vertices_exact b hb.1 hb.2.1 he
    have hv : ∀ v ∈ b.vertices, ∀ i, v i = b.min i ∨ v i = b.max i := by
      intro v hv i
      rw [hl] at hv
      obtain ⟨c, -, rfl⟩ := List.mem_map.1 hv
      simp only [corner]
      split_ifs
      · exact Or.inl rfl
      · exact Or.inr rfl
    have e1 : (b.transform (matId 4 4)).min = b.min := by
      funext i
      obtain ⟨v, hv', h⟩ := (hatt i).1
      rw [hid v hv'] at h
      rcases hv v hv' i with h' | h'
      · rw [h, h']
      · refine Flt.ext (hB.1 i) (hb.1 i) (le_antisymm (c1 i).1 ?_)
        rw [h, h']; exact hb.2.2 i
    have e2 : (b.transform (matId 4 4)).max = b.max := by
      funext i
      obtain ⟨v, hv', h⟩ := (hatt i).2
      rw [hid v hv'] at h
      rcases hv v hv' i with h' | h'
      · refine Flt.ext (hB.2.1 i) (hb.2.1 i) (le_antisymm ?_ (c2 i).2)
        rw [h, h']; exact hb.2.2 i
      · rw [h, h']
    show (⟨(b.transform (matId 4 4)).min, (b.transform (matId 4 4)).max⟩ : BBox (Flt P.fmt) 3) = ⟨b.min, b.max⟩
    rw [e1, e2]

/-- The constant matrices for quarter turns, half turns and mirroring move boxes of exact size exactly: no bound is rounded and the box does not
grow. -/
theorem C119_transform_constants (b : BBox (Flt P.fmt) 3) (hb : FiniteBox b) (he : ExactSize b) :
    b.transform rot90XCw = ⟨![b.min 0, b.min 2, -b.max 1], ![b.max 0, b.max 2, -b.min 1]⟩ ∧
    b.transform rot90XCcw = ⟨![b.min 0, -b.max 2, b.min 1], ![b.max 0, -b.min 2, b.max 1]⟩ ∧
    b.transform rot90YCw = ⟨![-b.max 2, b.min 1, b.min 0], ![-b.min 2, b.max 1, b.max 0]⟩ ∧
    b.transform rot90YCcw = ⟨![b.min 2, b.min 1, -b.max 0], ![b.max 2, b.max 1, -b.min 0]⟩ ∧
    b.transform rot90ZCw = ⟨![b.min 1, -b.max 0, b.min 2], ![b.max 1, -b.min 0, b.max 2]⟩ ∧
    b.transform rot90ZCcw = ⟨![-b.max 1, b.min 0, b.min 2], ![-b.min 1, b.max 0, b.max 2]⟩ ∧
    b.transform rot180X = ⟨![b.min 0, -b.max 1, -b.max 2], ![b.max 0, -b.min 1, -b.min 2]⟩ ∧
    b.transform rot180Y = ⟨![-b.max 0, b.min 1, -b.max 2], ![-b.min 0, b.max 1, -b.min 2]⟩ ∧
    b.transform rot180Z = ⟨![-b.max 0, -b.max 1, b.min 2], ![-b.min 0, -b.min 1, b.max 2]⟩ ∧
    b.transform mirrorX = ⟨![-b.max 0, b.min 1, b.min 2], ![-b.min 0, b.max 1, b.max 2]⟩ ∧
    b.transform mirrorY = ⟨![b.min 0, -b.max 1, b.min 2], ![b.max 0, -b.min 1, b.max 2]⟩ ∧
    b.transform mirrorZ = ⟨![b.min 0, b.min 1, -b.max 2], ![b.max 0, b.max 1, -b.min 2]⟩ := by
  have key : ∀ (m : Mat (Flt P.fmt) 4 4) (σ : Fin 3 → Fin 3) (s : Fin 3 → Bool),
      (∀ p : Vec (Flt P.fmt) 3, (∀ i, (p i).isFinite) → mmulPoint m p = fun i => if s i then -(p (σ i)) else p (σ i)) →
      b.transform m = ⟨fun i => if s i then -(b.max (σ i)) else b.min (σ i), fun i => if s i then -(b.min (σ i)) else b.max (σ i)⟩ := by
    intro m σ s h
    obtain ⟨l, hl, -, hall⟩ := C100_vertices_exact b hb.1 hb.2.1 he
    have hv : ∀ v ∈ b.vertices, ∀ i, v i = b.min i ∨ v i = b.max i := by
      intro v hv i
      rw [hl] at hv
      obtain ⟨c, -, rfl⟩ := List.mem_map.1 hv
      simp only [corner]
      split_ifs
      · exact Or.inl rfl
      · exact Or.inr rfl
    have hvf : ∀ v ∈ b.vertices, ∀ i, (v i).isFinite := by
      intro v hv' i
      rcases hv v hv' i with e | e
      · rw [e]; exact hb.1 i
      · rw [e]; exact hb.2.1 i
    have hf : ∀ v ∈ b.vertices, ∀ i, (mmulPoint m v i).isFinite := by
      intro v hv' i
      rw [h v (hvf v hv')]
      show (if s i then -(v (σ i)) else v (σ i)).isFinite
      split_ifs
      · exact Flt.neg_finite.2 (hvf v hv' _)
      · exact hvf v hv' _
    obtain ⟨-, hcon, hatt⟩ := C119_transform_vertices b m hf
    have hB := transform_finite b m hf
    have hmin : b.min ∈ b.vertices := by simp [vertices]
    have hmax : b.max ∈ b.vertices := by simp [vertices]
    have c1 := (contains_flt hB _ (hf _ hmin)).1 (hcon _ hmin)
    have c2 := (contains_flt hB _ (hf _ hmax)).1 (hcon _ hmax)
    rw [h _ hb.1] at c1
    rw [h _ hb.2.1] at c2
    have e1 : (b.transform m).min = fun i => if s i then -(b.max (σ i)) else b.min (σ i) := by
      funext i
      obtain ⟨v, hv', e⟩ := (hatt i).1
      rw [h v (hvf v hv')] at e
      have d1 := (c1 i).1
      have d2 := (c2 i).1
      have hle := hb.2.2 (σ i)
      cases hs : s i
      · simp only [hs, Bool.false_eq_true, if_false] at e d1 d2 ⊢
        rcases hv v hv' (σ i) with e' | e'
        · rw [e, e']
        · refine Flt.ext (hB.1 i) (hb.1 _) (le_antisymm d1 ?_)
          rw [e, e']; exact hle
      · simp only [hs, if_true] at e d1 d2 ⊢
        rcases hv v hv' (σ i) with e' | e'
        · refine Flt.ext (hB.1 i) (Flt.neg_finite.2 (hb.2.1 _)) (le_antisymm d2 ?_)
          rw [e, e', Flt.neg_val, Flt.neg_val]; linarith
        · rw [e, e']
    have e2 : (b.transform m).max = fun i => if s i then -(b.min (σ i)) else b.max (σ i) := by
      funext i
      obtain ⟨v, hv', e⟩ := (hatt i).2
      rw [h v (hvf v hv')] at e
      have d1 := (c1 i).2
      have d2 := (c2 i).2
      have hle := hb.2.2 (σ i)
      cases hs : s i
      · simp only [hs, Bool.false_eq_true, if_false] at e d1 d2 ⊢
        rcases hv v hv' (σ i) with e' | e'
        · refine Flt.ext (hB.2.1 i) (hb.2.1 _) (le_antisymm ?_ d2)
          rw [e, e']; exact hle
        · rw [e, e']
      · simp only [hs, if_true] at e d1 d2 ⊢
        rcases hv v hv' (σ i) with e' | e'
        · rw [e, e']
        · refine Flt.ext (hB.2.1 i) (Flt.neg_finite.2 (hb.1 _)) (le_antisymm ?_ d1)
          rw [e, e', Flt.neg_val, Flt.neg_val]; linarith
    show (⟨(b.transform m).min, (b.transform m).max⟩ : BBox (Flt P.fmt) 3) = _
    rw [e1, e2]
  have h3 : ∀ f : Fin 3 → Flt P.fmt, f = ![f 0, f 1, f 2] := by
    intro f; funext i; fin_cases i <;> rfl
  have c := C103_constants P.fmt
  refine ⟨?_, ?_, ?_, ?_, ?_, ?_, ?_, ?_, ?_, ?_, ?_, ?_⟩
  · rw [key _ ![0, 2, 1] ![false, false, true] fun p hp => by rw [(c p hp).1]; funext i; fin_cases i <;> rfl]
    exact congrArg₂ BBox.mk (h3 _) (h3 _)
  · rw [key _ ![0, 2, 1] ![false, true, false] fun p hp => by rw [(c p hp).2.1]; funext i; fin_cases i <;> rfl]
    exact congrArg₂ BBox.mk (h3 _) (h3 _)
  · rw [key _ ![2, 1, 0] ![true, false, false] fun p hp => by rw [(c p hp).2.2.1]; funext i; fin_cases i <;> rfl]
    exact congrArg₂ BBox.mk (h3 _) (h3 _)
  · rw [key _ ![2, 1, 0] ![false, false, true] fun p hp => by rw [(c p hp).2.2.2.1]; funext i; fin_cases i <;> rfl]
    exact congrArg₂ BBox.mk (h3 _) (h3 _)
  · rw [key _ ![1, 0, 2] ![false, true, false] fun p hp => by rw [(c p hp).2.2.2.2.1]; funext i; fin_cases i <;> rfl]
    exact congrArg₂ BBox.mk (h3 _) (h3 _)
  · rw [key _ ![1, 0, 2] ![true, false, false] fun p hp => by rw [(c p hp).2.2.2.2.2.1]; funext i; fin_cases i <;> rfl]
    exact congrArg₂ BBox.mk (h3 _) (h3 _)
  · rw [key _ ![0, 1, 2] ![false, true, true] fun p hp => by rw [(c p hp).2.2.2.2.2.2.1]; funext i; fin_cases i <;> rfl]
    exact congrArg₂ BBox.mk (h3 _) (h3 _)
  · rw [key _ ![0, 1, 2] ![true, false, true] fun p hp => by rw [(c p hp).2.2.2.2.2.2.2.1]; funext i; fin_cases i <;> rfl]
    exact congrArg₂ BBox.mk (h3 _) (h3 _)
  · rw [key _ ![0, 1, 2] ![true, true, false] fun p hp => by rw [(c p hp).2.2.2.2.2.2.2.2.1]; funext i; fin_cases i <;> rfl]
    exact congrArg₂ BBox.mk (h3 _) (h3 _)
  · rw [key _ ![0, 1, 2] ![true, false, false] fun p hp => by rw [(c p hp).2.2.2.2.2.2.2.2.2.1]; funext i; fin_cases i <;> rfl]
    exact congrArg₂ BBox.mk (h3 _) (h3 _)
  · rw [key _ ![0, 1, 2] ![false, true, false] fun p hp => by rw [(c p hp).2.2.2.2.2.2.2.2.2.2.1]; funext i; fin_cases i <;> rfl]
    exact congrArg₂ BBox.mk (h3 _) (h3 _)
  · rw [key _ ![0, 1, 2] ![false, false, true] fun p hp => by rw [(c p hp).2.2.2.2.2.2.2.2.2.2.2]; funext i; fin_cases i <;> rfl]
    exact congrArg₂ BBox.mk (h3 _) (h3 _)

example : ∃ b : BBox (Flt binary64.fmt) 3, FiniteBox b ∧ ExactSize b ∧ b.isEmpty = false :=
  ⟨⟨0, fun _ => 1⟩, ⟨fun _ => trivial, fun _ => trivial, fun _ => by show (0 : ℚ) ≤ 1; norm_num⟩,
    fun _ => by show binary64.fmt.rep (1 - 0); rw [sub_zero]; exact binary64.fmt.rep_one, by decide +kernel⟩

/-- If the size of the box is rounded then a point of the box may be moved out of the transformed box: the box from `(-1, -1, -2^-p)` to
`(0, 0, 1)` contains `(0, 0, -2^-p)`, but none of the vertices that `vertices` returns has these coordinates. -/
theorem C119_transform_fails (P : BinPar) : ∃ (b : BBox (Flt P.fmt) 3) (m : Mat (Flt P.fmt) 4 4) (p : Vec (Flt P.fmt) 3), FiniteBox b ∧
    (∀ c, m c 3 = if c = 3 then 1 else 0) ∧ (∀ v ∈ b.vertices, ∀ i, (mmulPoint m v i).isFinite) ∧ (∀ i, (p i).isFinite) ∧
    b.contains p = true ∧ (∀ i, (mmulPoint m p i).isFinite) ∧ (b.transform m).contains (mmulPoint m p) = false := by
  have hu := P.u_pos
  have hu8 := P.u_le
  have h8 : (2 : ℤ) ^ 3 ≤ 2 ^ P.p := pow_le_pow_right₀ (by norm_num) P.hp
  have ru : P.fmt.rep P.u := by simpa using rep_u_mul (P := P) (k := 1) (by norm_num)
  have rnu : P.fmt.rep (-P.u) := P.fmt.rep_neg ru
  have r1 : P.fmt.rep 1 := P.fmt.rep_one
  have r0 : P.fmt.rep 0 := P.fmt.rep_zero
  have rn1 : P.fmt.rep (-1) := P.fmt.rep_neg r1
  have rn2 : P.fmt.rep (-2) := by
    have := rep_of_int P (n := -2) (by norm_num; linarith)
    exact_mod_cast this
  obtain ⟨U, hU, hUv⟩ : ∃ U : Flt P.fmt, U.isFinite ∧ U.val = -P.u := ⟨Flt.fin (F := P.fmt) (-P.u) rnu, trivial, rfl⟩
  obtain ⟨N, hN, hNv⟩ : ∃ N : Flt P.fmt, N.isFinite ∧ N.val = -1 := ⟨Flt.fin (F := P.fmt) (-1) rn1, trivial, rfl⟩
  have z := Flt.zero_finite (P := P)
  have o := Flt.one_finite (P := P)
  have zv := Flt.zero_val (P := P)
  have ov := Flt.one_val (P := P)
  have sub : ∀ {x y t : Flt P.fmt}, x.isFinite → y.isFinite → t.isFinite → P.fl (x.val - y.val) = t.val → x - y = t := by
    intro x y t hx hy ht h
    rw [Flt.sub_eq hx hy, Flt.round_to (Flt.rep_val t) h]
    exact (Flt.eq_fin ht).2.symm
  have add : ∀ {x y t : Flt P.fmt}, x.isFinite → y.isFinite → t.isFinite → P.fl (x.val + y.val) = t.val → x + y = t := by
    intro x y t hx hy ht h
    rw [Flt.add_eq hx hy, Flt.round_to (Flt.rep_val t) h]
    exact (Flt.eq_fin ht).2.symm
  have s1 : (0 : Flt P.fmt) - N = 1 := sub z hN o (by rw [zv, hNv, ov]; norm_num; exact P.fl_rep r1.1)
  have s2 : (1 : Flt P.fmt) - U = 1 := sub o hU o (by rw [hUv, ov, sub_neg_eq_add]; exact fl_one_add)
  have s3 : (0 : Flt P.fmt) - 1 = N := sub z o hN (by rw [zv, hNv, ov, zero_sub]; exact P.fl_rep rn1.1)
  have s4 : (1 : Flt P.fmt) - 1 = 0 := sub o o z (by rw [zv, sub_self]; exact P.fl_rep r0.1)
  have s5 : N + 1 = 0 := add hN o z (by rw [zv, hNv, ov]; norm_num; exact P.fl_rep r0.1)
  obtain ⟨W, hW, hWv, hWe⟩ : ∃ W : Flt P.fmt, W.isFinite ∧ 0 ≤ W.val ∧ W.val ≤ 1 ∧ U + 1 = W := by
    have hf : (Flt.round (U.val + 1) : Flt P.fmt).isFinite := round_small_finite (by rw [hUv, abs_le]; constructor <;> linarith)
    refine ⟨U + 1, ?_⟩
    rw [Flt.add_eq hU o, ov, Flt.round_val hf]
    have h1 := P.fl_mono (show (0 : ℚ) ≤ U.val + 1 by rw [hUv]; linarith)
    have h2 := P.fl_mono (show U.val + 1 ≤ (1 : ℚ) by rw [hUv]; linarith)
    rw [P.fl_rep r0.1] at h1
    rw [P.fl_rep r1.1] at h2
    exact ⟨hf, h1, h2, rfl⟩
  have s6 : N + 0 = N := add_zero_flt hN
  have s7 : U + 0 = U := add_zero_flt hU
  have s8 : (1 : Flt P.fmt) - 0 = 1 := sub_zero_flt o
  have s9 : (0 : Flt P.fmt) - 0 = 0 := sub_zero_flt z
  have hm : ∀ c : Fin 4, (fun c r : Fin 4 => if r = 0 then (if c = 3 then 0 else if c = 2 then N else 1) else if c = r then (1 : Flt P.fmt) else 0) c 3 =
      if c = 3 then 1 else 0 := by intro c; rfl
  generalize hM : (fun c r : Fin 4 => if r = 0 then (if c = 3 then 0 else if c = 2 then N else 1) else if c = r then (1 : Flt P.fmt) else 0) = M at hm
  have img : ∀ v : Vec (Flt P.fmt) 3, (∀ i, (v i).isFinite) → mmulPoint M v 0 = v 0 + v 1 + N * v 2 ∧ mmulPoint M v 1 = v 1 ∧
      mmulPoint M v 2 = v 2 := by
    intro v hv
    have e : ∀ r, mmulVec M (toHomogeneous v) r = 0 + M 0 r * v 0 + M 1 r * v 1 + M 2 r * v 2 + M 3 r * 1 := by
      intro r
      simp only [mmulVec, Fin.foldl_succ_last, Fin.foldl_zero]
      rfl
    refine ⟨?_, ?_, ?_⟩
    all_goals
      rw [mmulPoint_affineF hm hv, e]
      subst hM
      simp [Flt.zero_add', Flt.add_zero', Flt.one_mul', Flt.mul_one', Flt.zero_mul_fin (hv _)]
  have nm : ∀ {x : Flt P.fmt}, x.isFinite → (N * x).isFinite ∧ (N * x).val = -x.val := by
    intro x hx
    have hr : P.fmt.rep (-x.val) := P.fmt.rep_neg (Flt.rep_val x)
    rw [Flt.mul_eq hN hx, hNv, neg_one_mul, round_rep hr]
    exact ⟨trivial, rfl⟩
  have s10 : ∀ {x y : Flt P.fmt}, x = 0 ∨ x = N → y = 0 ∨ y = N → (x + y).isFinite ∧ (x + y).val = x.val + y.val := by
    intro x y hx hy
    have hr : ∀ q : ℚ, P.fmt.rep q → (Flt.round q : Flt P.fmt).isFinite ∧ (Flt.round q : Flt P.fmt).val = q := by
      intro q hq
      rw [round_rep hq]; exact ⟨trivial, rfl⟩
    rcases hx with rfl | rfl <;> rcases hy with rfl | rfl
    · rw [Flt.add_eq z z]; refine hr _ ?_; rw [zv, add_zero]; exact r0
    · rw [Flt.add_eq z hN]; refine hr _ ?_; rw [zv, zero_add]; exact Flt.rep_val _
    · rw [Flt.add_eq hN z]; refine hr _ ?_; rw [zv, add_zero]; exact Flt.rep_val _
    · rw [Flt.add_eq hN hN]; refine hr _ ?_; rw [hNv]; norm_num; exact rn2
  have zN : ∀ {x : Flt P.fmt}, x = 0 ∨ x = N → x.isFinite ∧ -1 ≤ x.val ∧ x.val ≤ 0 := by
    rintro x (rfl | rfl)
    · exact ⟨z, by rw [zv]; norm_num, zv.le⟩
    · exact ⟨hN, hNv.ge, by rw [hNv]; norm_num⟩
  have good : ∀ v : Vec (Flt P.fmt) 3, v 0 = 0 ∨ v 0 = N → v 1 = 0 ∨ v 1 = N →
      (v 2).isFinite ∧ |(v 2).val| ≤ 1 ∧ (v 0).val + (v 1).val ≤ (v 2).val →
      (∀ i, (mmulPoint M v i).isFinite) ∧ (mmulPoint M v 0).val ≤ 0 := by
    intro v h0 h1 ⟨h2, h3, h4⟩
    have hv : ∀ i, (v i).isFinite := by
      intro i
      fin_cases i
      · exact (zN h0).1
      · exact (zN h1).1
      · exact h2
    obtain ⟨i0, i1, i2⟩ := img v hv
    obtain ⟨a1, a2⟩ := s10 h0 h1
    obtain ⟨b1, b2⟩ := nm h2
    have hx := (zN h0).2
    have hy := (zN h1).2
    rw [abs_le] at h3
    have hs : (Flt.round ((v 0 + v 1).val + (N * v 2).val) : Flt P.fmt).isFinite := round_small_finite (by
      rw [a2, b2, abs_le]; constructor <;> linarith [hx.1, hx.2, hy.1, hy.2, h3.1, h3.2])
    constructor
    · intro i
      fin_cases i
      · show (mmulPoint M v 0).isFinite
        rw [i0, Flt.add_eq a1 b1]; exact hs
      · show (mmulPoint M v 1).isFinite
        rw [i1]; exact hv 1
      · show (mmulPoint M v 2).isFinite
        rw [i2]; exact hv 2
    · rw [i0, Flt.add_eq a1 b1, Flt.round_val hs, ← P.fl_rep r0.1]
      refine P.fl_mono ?_
      rw [a2, b2]; linarith
  have hvs : ∀ v ∈ BBox.vertices (⟨![N, N, U], ![0, 0, 1]⟩ : BBox (Flt P.fmt) 3),
      (∀ i, (mmulPoint M v i).isFinite) ∧ (mmulPoint M v 0).val ≤ 0 := by
    intro v hv
    have good' : ∀ (v : Vec (Flt P.fmt) 3) (x y t : Flt P.fmt), v 0 = x → v 1 = y → v 2 = t → x = 0 ∨ x = N → y = 0 ∨ y = N →
        (x = 0 ∨ x = N → y = 0 ∨ y = N → t.isFinite ∧ |t.val| ≤ 1 ∧ x.val + y.val ≤ t.val) →
        (∀ i, (mmulPoint M v i).isFinite) ∧ (mmulPoint M v 0).val ≤ 0 := by
      rintro v _ _ _ rfl rfl rfl hx hy h
      exact good v hx hy (h hx hy)
    have t1 : ∀ {x y : Flt P.fmt}, x = 0 ∨ x = N → y = 0 ∨ y = N → (1 : Flt P.fmt).isFinite ∧ |(1 : Flt P.fmt).val| ≤ 1 ∧
        x.val + y.val ≤ (1 : Flt P.fmt).val := by
      intro x y hx hy
      refine ⟨o, by rw [ov]; norm_num, ?_⟩
      rw [ov]; linarith [(zN hx).2.2, (zN hy).2.2]
    have tU : ∀ {x y : Flt P.fmt}, x = 0 ∨ x = N → y = 0 ∨ y = N → x = N ∨ y = N → U.isFinite ∧ |U.val| ≤ 1 ∧ x.val + y.val ≤ U.val := by
      intro x y hx hy h
      refine ⟨hU, by rw [hUv, abs_neg, abs_of_pos hu]; linarith, ?_⟩
      rcases h with rfl | rfl
      · rw [hUv, hNv]; linarith [(zN hy).2.2]
      · rw [hUv, hNv]; linarith [(zN hx).2.2]
    have f1 : (0 : Flt P.fmt) - (0 - N) = N := by rw [s1, s3]
    have f2 : U + (1 - U) = W := by rw [s2, hWe.2]
    have f3 : N + (0 - N) = 0 := by rw [s1, s5]
    have f4 : (1 : Flt P.fmt) - (1 - U) = 0 := by rw [s2, s4]
    simp only [vertices, List.mem_cons, List.not_mem_nil, or_false] at hv
    rcases hv with rfl | rfl | rfl | rfl | rfl | rfl | rfl | rfl
    · exact good' _ _ _ _ rfl rfl rfl (Or.inl rfl) (Or.inl rfl) t1
    · exact good' _ 0 N 1 s9 f1 s8 (Or.inl rfl) (Or.inr rfl) t1
    · exact good' _ N N W s6 s6 f2 (Or.inr rfl) (Or.inr rfl) (fun hx hy => ⟨hW, by rw [abs_of_nonneg hWv]; exact hWe.1, by
        linarith [(zN hx).2.2, (zN hy).2.2]⟩)
    · exact good' _ N 0 1 f1 s9 s8 (Or.inr rfl) (Or.inl rfl) t1
    · exact good' _ N N U rfl rfl rfl (Or.inr rfl) (Or.inr rfl) (fun hx hy => tU hx hy (Or.inl rfl))
    · exact good' _ 0 N U f3 s6 s7 (Or.inl rfl) (Or.inr rfl) (fun hx hy => tU hx hy (Or.inr rfl))
    · exact good' _ 0 0 0 s9 s9 f4 (Or.inl rfl) (Or.inl rfl) (fun hx hy => ⟨z, by rw [zv]; norm_num, by rw [zv]; norm_num⟩)
    · exact good' _ N 0 U s6 f3 s7 (Or.inr rfl) (Or.inl rfl) (fun hx hy => tU hx hy (Or.inl rfl))
  have hf := fun v hv => (hvs v hv).1
  have hP : ∀ i, ((![0, 0, U] : Vec (Flt P.fmt) 3) i).isFinite := by
    intro i
    fin_cases i
    · exact z
    · exact z
    · exact hU
  have hb : FiniteBox (⟨![N, N, U], ![0, 0, 1]⟩ : BBox (Flt P.fmt) 3) := by
    refine ⟨fun i => ?_, fun i => ?_, fun i => ?_⟩
    · fin_cases i
      · exact hN
      · exact hN
      · exact hU
    · fin_cases i
      · exact z
      · exact z
      · exact o
    · fin_cases i
      · show N.val ≤ (0 : Flt P.fmt).val
        rw [hNv, zv]; norm_num
      · show N.val ≤ (0 : Flt P.fmt).val
        rw [hNv, zv]; norm_num
      · show U.val ≤ (1 : Flt P.fmt).val
        rw [hUv, ov]; linarith
  obtain ⟨i0, i1, i2⟩ := img ![0, 0, U] hP
  have i0 : mmulPoint M ![0, 0, U] 0 = N * U := by
    rw [i0]
    show (0 : Flt P.fmt) + 0 + N * U = N * U
    rw [Flt.zero_add', Flt.zero_add']
  have himg : ∀ i, (mmulPoint M ![0, 0, U] i).isFinite := by
    intro i
    fin_cases i
    · show (mmulPoint M ![0, 0, U] 0).isFinite
      rw [i0]; exact (nm hU).1
    · show (mmulPoint M ![0, 0, U] 1).isFinite
      rw [i1]; exact hP 1
    · show (mmulPoint M ![0, 0, U] 2).isFinite
      rw [i2]; exact hP 2
  refine ⟨⟨![N, N, U], ![0, 0, 1]⟩, M, ![0, 0, U], hb, hm, hf, hP, ?_, himg, ?_⟩
  · rw [contains_flt hb _ hP]
    intro i
    fin_cases i
    · show N.val ≤ (0 : Flt P.fmt).val ∧ (0 : Flt P.fmt).val ≤ (0 : Flt P.fmt).val
      rw [hNv, zv]; norm_num
    · show N.val ≤ (0 : Flt P.fmt).val ∧ (0 : Flt P.fmt).val ≤ (0 : Flt P.fmt).val
      rw [hNv, zv]; norm_num
    · show U.val ≤ U.val ∧ U.val ≤ (1 : Flt P.fmt).val
      rw [hUv, ov]; exact ⟨le_refl _, by linarith⟩
  · rw [Bool.eq_false_iff]
    intro h
    have h := ((contains_flt (transform_finite _ _ hf) _ himg).1 h 0).2
    obtain ⟨-, -, hatt⟩ := C119_transform_vertices _ M hf
    obtain ⟨v, hv, hmax⟩ := (hatt 0).2
    have := (hvs v hv).2
    rw [hmax, i0, (nm hU).2, hUv] at h
    linarith

end vm
