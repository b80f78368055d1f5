import Verif.Props.FltBox
import Verif.Props.FltMat
import Verif.Lemmas.FltError

/-! # Lemmas about sums and builders in IEEE arithmetic -/

set_option linter.unusedSectionVars false
set_option linter.unusedSimpArgs false

namespace vm
open BBox BinPar
variable {P : BinPar} {S : ℕ}

/-! ### Sums are monotone in every term -/

theorem Flt.round_sandwich {x q y : ℚ} (h1 : x ≤ q) (h2 : q ≤ y) (hx : (Flt.round x : Flt P.fmt).isFinite)
    (hy : (Flt.round y : Flt P.fmt).isFinite) : (Flt.round q : Flt P.fmt).isFinite ∧
    (Flt.round x : Flt P.fmt).val ≤ (Flt.round q : Flt P.fmt).val ∧ (Flt.round q : Flt P.fmt).val ≤ (Flt.round y : Flt P.fmt).val := by
  have m1 := P.fl_mono h1
  have m2 := P.fl_mono h2
  have hf : (Flt.round q : Flt P.fmt).isFinite := by
    rw [Flt.round_finite] at hx hy ⊢
    rw [abs_lt] at hx hy ⊢
    exact ⟨lt_of_lt_of_le hx.1 m1, lt_of_le_of_lt m2 hy.2⟩
  rw [Flt.round_val hx, Flt.round_val hy, Flt.round_val hf]
  exact ⟨hf, m1, m2⟩

theorem fsum_sandwich : ∀ {n : ℕ} (a x q y : Fin n → Flt P.fmt), (∀ i, (q i).isFinite) →
    (∀ i, (a i).val * (x i).val ≤ (a i).val * (q i).val ∧ (a i).val * (q i).val ≤ (a i).val * (y i).val) →
    (Fin.foldl n (fun acc i => acc + a i * x i) 0).isFinite → (Fin.foldl n (fun acc i => acc + a i * y i) 0).isFinite →
    (Fin.foldl n (fun acc i => acc + a i * q i) 0).isFinite ∧
    (Fin.foldl n (fun acc i => acc + a i * x i) 0).val ≤ (Fin.foldl n (fun acc i => acc + a i * q i) 0).val ∧
    (Fin.foldl n (fun acc i => acc + a i * q i) 0).val ≤ (Fin.foldl n (fun acc i => acc + a i * y i) 0).val
  | 0, _, _, _, _, _, _, _, _ => by
    simp only [Fin.foldl_zero]
    exact ⟨Flt.zero_finite, le_refl _, le_refl _⟩
  | n + 1, a, x, q, y, hq, h, hx, hy => by
    simp only [Fin.foldl_succ_last] at hx hy ⊢
    obtain ⟨hx1, hx2⟩ := Flt.add_finite hx
    obtain ⟨hy1, hy2⟩ := Flt.add_finite hy
    obtain ⟨s1, s2, s3⟩ := fsum_sandwich (fun i => a i.castSucc) (fun i => x i.castSucc) (fun i => q i.castSucc) (fun i => y i.castSucc)
      (fun i => hq _) (fun i => h _) hx1 hy1
    obtain ⟨ha, hxl⟩ := Flt.mul_finite hx2
    obtain ⟨_, hyl⟩ := Flt.mul_finite hy2
    have hl := h (Fin.last n)
    rw [Flt.mul_eq ha hxl] at hx2 hx ⊢
    rw [Flt.mul_eq ha hyl] at hy2 hy ⊢
    rw [Flt.mul_eq ha (hq _)]
    obtain ⟨m1, m2, m3⟩ := Flt.round_sandwich hl.1 hl.2 hx2 hy2
    rw [Flt.add_eq hx1 hx2] at hx ⊢
    rw [Flt.add_eq hy1 hy2] at hy ⊢
    rw [Flt.add_eq s1 m1]
    exact Flt.round_sandwich (add_le_add s2 m2) (add_le_add s3 m3) hx hy

/-! ### Builders -/

theorem builderRun_points (v : Vec (Flt P.fmt) 3) (l : List (Vec (Flt P.fmt) 3)) (hl : ∀ w ∈ v :: l, ∀ i, (w i).isFinite) :
    FiniteBox (builderRun ((v :: l).map Add'.point)) ∧
    (∀ w ∈ v :: l, ∀ i, ((builderRun ((v :: l).map Add'.point)).min i).val ≤ (w i).val ∧
      (w i).val ≤ ((builderRun ((v :: l).map Add'.point)).max i).val) ∧
    ∀ i, (∃ w ∈ v :: l, (builderRun ((v :: l).map Add'.point)).min i = w i) ∧ ∃ w ∈ v :: l, (builderRun ((v :: l).map Add'.point)).max i = w i := by
  have key : ∀ (l : List (Vec (Flt P.fmt) 3)) (b : BBox (Flt P.fmt) 3), FiniteBox b → (∀ w ∈ l, ∀ i, (w i).isFinite) →
      FiniteBox ((l.map Add'.point).foldl builderAdd b) ∧
      (∀ i, (((l.map Add'.point).foldl builderAdd b).min i).val ≤ (b.min i).val ∧
        (b.max i).val ≤ (((l.map Add'.point).foldl builderAdd b).max i).val) ∧
      (∀ w ∈ l, ∀ i, (((l.map Add'.point).foldl builderAdd b).min i).val ≤ (w i).val ∧
        (w i).val ≤ (((l.map Add'.point).foldl builderAdd b).max i).val) ∧
      ∀ i, (((l.map Add'.point).foldl builderAdd b).min i = b.min i ∨ ∃ w ∈ l, ((l.map Add'.point).foldl builderAdd b).min i = w i) ∧
        (((l.map Add'.point).foldl builderAdd b).max i = b.max i ∨ ∃ w ∈ l, ((l.map Add'.point).foldl builderAdd b).max i = w i) := by
    intro l
    induction l with
    | nil =>
      intro b hb _
      exact ⟨hb, fun i => ⟨le_refl _, le_refl _⟩, by simp, fun i => ⟨Or.inl rfl, Or.inl rfl⟩⟩
    | cons w l ih =>
      intro b hb hw
      have hwf := hw w (by simp)
      have hv : b.isValid = true := by
        unfold isValid isValidPair
        rw [List.all_eq_true]
        intro i _
        rw [Flt.lt_val (hb.2.1 i) (hb.1 i), decide_eq_false (not_lt.2 (hb.2.2 i))]; rfl
      have e : builderAdd b (Add'.point w) = mergePoint b w := by
        show (if !builderInitialized b then _ else _) = _
        rw [builderInitialized, hv]; rfl
      have emin : ∀ i, (mergePoint b w).min i = if (b.min i).val < (w i).val then b.min i else w i := by
        intro i
        show (if Cmp.lt (b.min i) (w i) then b.min i else w i) = _
        rw [Flt.lt_val (hb.1 i) (hwf i)]
        simp
      have emax : ∀ i, (mergePoint b w).max i = if (w i).val < (b.max i).val then b.max i else w i := by
        intro i
        show (if Cmp.lt (w i) (b.max i) then b.max i else w i) = _
        rw [Flt.lt_val (hwf i) (hb.2.1 i)]
        simp
      have m1 : ∀ i, ((mergePoint b w).min i).isFinite ∧ ((mergePoint b w).min i).val ≤ (b.min i).val ∧
          ((mergePoint b w).min i).val ≤ (w i).val := by
        intro i
        rw [emin i]
        split_ifs with h
        · exact ⟨hb.1 i, le_refl _, h.le⟩
        · exact ⟨hwf i, not_lt.1 h, le_refl _⟩
      have m2 : ∀ i, ((mergePoint b w).max i).isFinite ∧ (b.max i).val ≤ ((mergePoint b w).max i).val ∧
          (w i).val ≤ ((mergePoint b w).max i).val := by
        intro i
        rw [emax i]
        split_ifs with h
        · exact ⟨hb.2.1 i, le_refl _, h.le⟩
        · exact ⟨hwf i, not_lt.1 h, le_refl _⟩
      rw [List.map_cons, List.foldl_cons, e]
      obtain ⟨h1, h2, h3, h4⟩ := ih (mergePoint b w) ⟨fun i => (m1 i).1, fun i => (m2 i).1, fun i => by
        have := (m1 i).2.2
        have := (m2 i).2.2
        linarith⟩ fun z hz => hw z (by simp [hz])
      refine ⟨h1, fun i => ⟨(h2 i).1.trans (m1 i).2.1, (m2 i).2.1.trans (h2 i).2⟩, ?_, fun i => ⟨?_, ?_⟩⟩
      · intro z hz i
        rcases List.mem_cons.1 hz with rfl | hz
        · exact ⟨(h2 i).1.trans (m1 i).2.2, (m2 i).2.2.trans (h2 i).2⟩
        · exact h3 z hz i
      · rcases (h4 i).1 with h | ⟨z, hz, h⟩
        · rw [h, emin i]
          split_ifs
          · exact Or.inl rfl
          · exact Or.inr ⟨w, by simp, rfl⟩
        · exact Or.inr ⟨z, by simp [hz], h⟩
      · rcases (h4 i).2 with h | ⟨z, hz, h⟩
        · rw [h, emax i]
          split_ifs
          · exact Or.inl rfl
          · exact Or.inr ⟨w, by simp, rfl⟩
        · exact Or.inr ⟨z, by simp [hz], h⟩
  have hinit : builderAdd (builderInit : BBox (Flt P.fmt) 3) (Add'.point v) = ⟨v, v⟩ := by
    have h : (builderInit : BBox (Flt P.fmt) 3).isValid = false := by
      unfold isValid isValidPair
      rw [List.all_eq_false]
      refine ⟨0, List.mem_finRange _, ?_⟩
      show ¬ ((!(Cmp.lt (0 : Flt P.fmt) 1)) = true)
      rw [Flt.lt_val Flt.zero_finite Flt.one_finite, Flt.zero_val, Flt.one_val]
      simp
    show (if !builderInitialized (builderInit : BBox (Flt P.fmt) 3) then (⟨v, v⟩ : BBox (Flt P.fmt) 3) else mergePoint builderInit v) = _
    rw [builderInitialized, h]; rfl
  have hvf := hl v (by simp)
  obtain ⟨h1, h2, h3, h4⟩ := key l ⟨v, v⟩ ⟨hvf, hvf, fun i => le_refl _⟩ fun w hw => hl w (by simp [hw])
  unfold builderRun
  rw [List.map_cons, List.foldl_cons, hinit]
  refine ⟨h1, ?_, fun i => ⟨?_, ?_⟩⟩
  · intro w hw i
    rcases List.mem_cons.1 hw with rfl | hw
    · exact h2 i
    · exact h3 w hw i
  · rcases (h4 i).1 with h | ⟨z, hz, h⟩
    · exact ⟨v, by simp, h⟩
    · exact ⟨z, by simp [hz], h⟩
  · rcases (h4 i).2 with h | ⟨z, hz, h⟩
    · exact ⟨v, by simp, h⟩
    · exact ⟨z, by simp [hz], h⟩


theorem mmulPoint_affineF {m : Mat (Flt P.fmt) 4 4} (hm : ∀ c, m c 3 = if c = 3 then 1 else 0) {v : Vec (Flt P.fmt) 3} (hv : ∀ i, (v i).isFinite)
    (i : Fin 3) : mmulPoint m v i = mmulVec m (toHomogeneous v) i.castSucc := by
  show mmulVec m (toHomogeneous v) i.castSucc / mmulVec m (toHomogeneous v) 3 = _
  have e : mmulVec m (toHomogeneous v) 3 = 0 + m 0 3 * v 0 + m 1 3 * v 1 + m 2 3 * v 2 + m 3 3 * 1 := by
    simp only [mmulVec, Fin.foldl_succ_last, Fin.foldl_zero]
    rfl
  have e1 : mmulVec m (toHomogeneous v) 3 = 1 := by
    rw [e, hm, hm, hm, hm]
    simp [Flt.zero_mul_fin (hv _), Flt.zero_add', Flt.add_zero', Flt.mul_one']
  rw [e1, Flt.div_one']

theorem transform_finite (b : BBox (Flt P.fmt) 3) (m : Mat (Flt P.fmt) 4 4) (hf : ∀ v ∈ b.vertices, ∀ i, (mmulPoint m v i).isFinite) :
    FiniteBox (b.transform m) :=
  (builderRun_points (mmulPoint m b.max) ((b.vertices.tail).map (mmulPoint m)) (by
    intro w hw
    rcases List.mem_cons.1 hw with rfl | hw
    · exact hf _ (by simp [vertices])
    · obtain ⟨v, hv, rfl⟩ := List.mem_map.1 hw
      exact hf v (List.mem_of_mem_tail hv))).1

theorem round_small_finite {q : ℚ} (h : |q| ≤ 4) : (Flt.round q : Flt P.fmt).isFinite := by
  have h8 : (2 : ℤ) ^ 3 ≤ 2 ^ P.p := pow_le_pow_right₀ (by norm_num) P.hp
  have r4 : P.fmt.rep ((4 : ℤ) : ℚ) := rep_of_int P (by norm_num; linarith)
  have r4' : P.fmt.rep ((-4 : ℤ) : ℚ) := rep_of_int P (by norm_num; linarith)
  rw [Flt.round_finite]
  rw [abs_le] at h
  have h1 := P.fl_mono h.1
  have h2 := P.fl_mono h.2
  have e1 := P.fl_rep r4.1
  have e2 := P.fl_rep r4'.1
  push_cast at e1 e2
  rw [e2] at h1
  rw [e1] at h2
  refine lt_of_le_of_lt (abs_le.2 ⟨h1, h2⟩) ?_
  have := r4.2
  simpa [abs_of_pos] using this

end vm
