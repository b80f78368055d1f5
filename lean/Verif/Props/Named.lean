import Verif.Model.Named
import Verif.Lemmas.FltCmp
import Verif.Lemmas.Vec
import Verif.Lemmas.IntC
import Verif.Props.FltMat
import Verif.Props.SFlt
import Verif.Props.FltLupExact
import Verif.Lemmas.Order

/-!
# C118: named vectors, iteration over polygons, row vector times matrix
-/

set_option linter.unusedSectionVars false
set_option linter.unusedSimpArgs false

namespace vm

open BinPar (zpow_add2 log_le_self lt_succ_log le_log_of_le two_zpow_pos)

variable {P : BinPar}

theorem BinPar.two_pow_sub_one_pos (P : BinPar) : (0 : ℚ) < 2 ^ P.p - 1 := by
  have : (2 : ℚ) ^ 0 < 2 ^ P.p := pow_lt_pow_right₀ (by norm_num) (by have := P.hp; omega)
  linarith [this, pow_zero (2 : ℚ)]

theorem BinPar.maxVal_pos (P : BinPar) : 0 < P.maxVal := mul_pos P.two_pow_sub_one_pos (two_zpow_pos _)

theorem BinPar.maxVal_lt (P : BinPar) : P.maxVal < P.bound := by
  unfold BinPar.maxVal BinPar.bound
  rw [zpow_add2, zpow_natCast]
  exact mul_lt_mul_of_pos_right (by linarith) (two_zpow_pos _)

theorem BinPar.qmin_le_qmax (P : BinPar) : P.qmin ≤ P.qmax := by
  have h1 := P.hmin
  have h2 := P.hmax
  omega

theorem BinPar.rep_maxVal (P : BinPar) : P.fmt.rep P.maxVal := by
  refine ⟨⟨2 ^ P.p - 1, P.qmax, by unfold BinPar.maxVal; push_cast; ring, ?_, P.qmin_le_qmax⟩, ?_⟩
  · have : (1 : ℤ) ≤ 2 ^ P.p := one_le_pow₀ (by norm_num)
    rw [abs_of_nonneg (by linarith)]
    linarith
  · rw [abs_of_pos P.maxVal_pos]; exact P.maxVal_lt

theorem BinPar.minVal_pos (P : BinPar) : 0 < P.minVal := two_zpow_pos _

theorem BinPar.rep_minVal (P : BinPar) : P.fmt.rep P.minVal := by
  have h1 := P.hmin
  have h2 := P.hmax
  have h3 := P.hp
  refine ⟨⟨1, P.qmin + P.p - 1, by unfold BinPar.minVal; push_cast; ring, ?_, by omega⟩, ?_⟩
  · exact one_lt_pow₀ (by norm_num) (by omega)
  · rw [abs_of_pos P.minVal_pos]
    unfold BinPar.minVal BinPar.bound
    exact zpow_lt_zpow_right₀ (by norm_num) (by omega)

theorem BinPar.le_maxVal {q : ℚ} (h : P.fmt.rep q) : |q| ≤ P.maxVal := by
  obtain ⟨⟨m, e, h1, h2, h3⟩, h4⟩ := h
  by_cases he : e ≤ P.qmax
  · have h2' : |m| ≤ 2 ^ P.p - 1 := by omega
    have h2'' : |(m : ℚ)| ≤ 2 ^ P.p - 1 := by exact_mod_cast h2'
    rw [h1, abs_mul, abs_of_pos (two_zpow_pos e)]
    exact mul_le_mul h2'' (zpow_le_zpow_right₀ (by norm_num) he) (two_zpow_pos e).le P.two_pow_sub_one_pos.le
  · have he : P.qmax ≤ e := by omega
    rw [zpow_eq_int_mul he, ← mul_assoc, ← Int.cast_mul] at h1
    set n : ℤ := m * 2 ^ (e - P.qmax).toNat with hn
    have h5 : |(n : ℚ)| < 2 ^ P.p := by
      rw [h1, abs_mul, abs_of_pos (two_zpow_pos _), BinPar.bound, zpow_add2, zpow_natCast] at h4
      exact lt_of_mul_lt_mul_right h4 (two_zpow_pos _).le
    have h5' : |n| < 2 ^ P.p := by exact_mod_cast h5
    have h6 : |n| ≤ 2 ^ P.p - 1 := by omega
    have h6' : |(n : ℚ)| ≤ 2 ^ P.p - 1 := by exact_mod_cast h6
    rw [h1, abs_mul, abs_of_pos (two_zpow_pos _)]
    exact mul_le_mul_of_nonneg_right h6' (two_zpow_pos _).le

theorem max_eq (P : BinPar) : (Limits.max : Flt P.fmt) = Flt.fin (F := P.fmt) P.maxVal P.rep_maxVal := Flt.round_of_rep P.rep_maxVal

theorem min_eq (P : BinPar) : (Limits.min : Flt P.fmt) = Flt.fin (F := P.fmt) P.minVal P.rep_minVal := Flt.round_of_rep P.rep_minVal

/-- `vec::max()` is finite and no finite number exceeds its components in magnitude. -/
theorem C118_max (P : BinPar) (S : ℕ) (i : Fin S) : ((vmaxConst S : Vec (Flt P.fmt) S) i).isFinite ∧
    ∀ x : Flt P.fmt, x.isFinite → Cmp.le x ((vmaxConst S : Vec (Flt P.fmt) S) i) = true ∧
      Cmp.le (-(vmaxConst S : Vec (Flt P.fmt) S) i) x = true := by
  have hf : (Limits.max : Flt P.fmt).isFinite := by rw [max_eq]; trivial
  have hv : (Limits.max : Flt P.fmt).val = P.maxVal := by rw [max_eq]; rfl
  show (Limits.max : Flt P.fmt).isFinite ∧ ∀ x : Flt P.fmt, x.isFinite → Cmp.le x (Limits.max : Flt P.fmt) = true ∧
    Cmp.le (-(Limits.max : Flt P.fmt)) x = true
  refine ⟨hf, fun x hx => ?_⟩
  have := abs_le.1 (BinPar.le_maxVal (Flt.rep_val x))
  rw [Flt.lt_asymm_le hx hf, Flt.lt_asymm_le (Flt.neg_finite.2 hf) hx, Flt.neg_val, hv]
  exact ⟨decide_eq_true this.2, decide_eq_true this.1⟩

/-- `vec::min()` is not the vector of the least numbers: its components are greater than every finite number that is not positive.  They are the
least positive numbers with full precision: the positive finite numbers that are not less are those with a significand of exactly `p` bits. -/
theorem C118_min (P : BinPar) (S : ℕ) (i : Fin S) : ((vminConst S : Vec (Flt P.fmt) S) i).isFinite ∧
    (∀ x : Flt P.fmt, x.isFinite → x.val ≤ 0 → Cmp.lt x ((vminConst S : Vec (Flt P.fmt) S) i) = true) ∧
    ∀ x : Flt P.fmt, x.isFinite → 0 < x.val → (Cmp.le ((vminConst S : Vec (Flt P.fmt) S) i) x = true ↔
      ∃ m e : ℤ, x.val = m * 2 ^ e ∧ 2 ^ (P.p - 1) ≤ m ∧ m < 2 ^ P.p ∧ P.qmin ≤ e) := by
  have hf : (Limits.min : Flt P.fmt).isFinite := by rw [min_eq]; trivial
  have hv : (Limits.min : Flt P.fmt).val = P.minVal := by rw [min_eq]; rfl
  show (Limits.min : Flt P.fmt).isFinite ∧ (∀ x : Flt P.fmt, x.isFinite → x.val ≤ 0 → Cmp.lt x (Limits.min : Flt P.fmt) = true) ∧
    ∀ x : Flt P.fmt, x.isFinite → 0 < x.val → (Cmp.le (Limits.min : Flt P.fmt) x = true ↔ _)
  refine ⟨hf, fun x hx h0 => ?_, fun x hx h0 => ?_⟩
  · rw [Flt.lt_val hx hf, hv]
    exact decide_eq_true (lt_of_le_of_lt h0 P.minVal_pos)
  · rw [Flt.lt_asymm_le hf hx, hv, decide_eq_true_iff]
    have hp := P.hp
    constructor
    · intro h
      set j := Int.log 2 |x.val| + 1 - P.p with hj
      have hl := log_le_self h0.ne'
      have hu := lt_succ_log x.val
      have hle : P.qmin ≤ j := by
        have h1 := le_log_of_le (q := x.val) (k := P.qmin + P.p - 1) (by rw [abs_of_pos h0]; exact h)
        omega
      obtain ⟨m, hm⟩ := (Flt.rep_val x).1.multiple (j := j) (by
        have : j + P.p - 1 = Int.log 2 |x.val| := by omega
        rw [this]; exact hl)
      have hm0 : (0 : ℚ) < m := by
        rw [hm] at h0
        exact (mul_pos_iff_of_pos_right (two_zpow_pos j)).1 h0
      refine ⟨m, j, hm, ?_, ?_, hle⟩
      · have e1 : Int.log 2 |x.val| = ((P.p - 1 : ℕ) : ℤ) + j := by omega
        rw [e1, zpow_add2, zpow_natCast, hm, abs_mul, abs_of_pos (two_zpow_pos j), abs_of_pos hm0] at hl
        have := le_of_mul_le_mul_right hl (two_zpow_pos j)
        exact_mod_cast this
      · have e1 : Int.log 2 |x.val| + 1 = (P.p : ℤ) + j := by omega
        rw [e1, zpow_add2, zpow_natCast, hm, abs_mul, abs_of_pos (two_zpow_pos j), abs_of_pos hm0] at hu
        have := lt_of_mul_lt_mul_right hu (two_zpow_pos j).le
        exact_mod_cast this
    · rintro ⟨m, e, h1, h2, h3, h4⟩
      have e1 : P.qmin + P.p - 1 = ((P.p - 1 : ℕ) : ℤ) + P.qmin := by omega
      rw [h1, BinPar.minVal, e1, zpow_add2, zpow_natCast]
      have h2' : (2 : ℚ) ^ (P.p - 1) ≤ m := by exact_mod_cast h2
      exact mul_le_mul h2' (zpow_le_zpow_right₀ (by norm_num) h4) (two_zpow_pos _).le (le_trans (by positivity) h2')

/-- For signed integers `vec::min()` and `vec::max()` are the least and the greatest values, and `vec::nan()` is the zero vector. -/
theorem C118_int (w S : ℕ) (i : Fin S) (x : SInt w) (z : ℤ) (hx : x.toInt = some z) :
    Cmp.le ((vminConst S : Vec (SInt w) S) i) x = true ∧ Cmp.le x ((vmaxConst S : Vec (SInt w) S) i) = true ∧
    (vnan S : Vec (SInt w) S) = vzero S ∧ visNan (vnan S : Vec (SInt w) S) = false := by
  have hz : (0 : SInt w).toInt = some 0 := SInt.zero_int
  have hr := SInt.inRange hx
  have hp : (0 : ℤ) < 2 ^ (w - 1) := by positivity
  obtain ⟨h1, e1⟩ := SInt.eq_val hx
  have e2 : (Limits.min : SInt w) = SInt.val (-2 ^ (w - 1)) ⟨le_refl _, by linarith⟩ := dif_pos _
  have e3 : (Limits.max : SInt w) = SInt.val (2 ^ (w - 1) - 1) ⟨by linarith, by linarith⟩ := dif_pos _
  refine ⟨?_, ?_, rfl, ?_⟩
  · show Cmp.le (Limits.min : SInt w) x = true
    rw [e1, e2]
    exact decide_eq_true hr.1
  · show Cmp.le x (Limits.max : SInt w) = true
    rw [e1, e3]
    exact decide_eq_true (by have := hr.2; omega)
  · unfold visNan
    rw [List.any_eq_false]
    intro j _
    show ¬ (isNan (0 : SInt w) = true)
    obtain ⟨h0, e0⟩ := SInt.eq_val hz
    rw [e0]
    show ¬ ((!(decide ((0 : ℤ) = 0))) = true)
    simp

/-- `vec::nan()` of a floating point type: `is_nan` holds (if there is a component at all) and it differs from itself under component-wise
comparison, but `==` calls it equal to itself and sorts it above all vectors without NaN. -/
theorem C118_nan (P : BinPar) (S : ℕ) : visNan (vnan (S + 1) : Vec (Flt P.fmt) (S + 1)) = true ∧
    veq (vnan (S + 1) : Vec (Flt P.fmt) (S + 1)) (vnan (S + 1)) = true ∧
    ∀ v : Vec (Flt P.fmt) (S + 1), visNan v = false → vlt v (vnan (S + 1)) = true := by
  have hn : isNan (Flt.nan : Flt P.fmt) = true := rfl
  refine ⟨?_, ?_, fun v hv => ?_⟩
  · unfold visNan
    rw [List.any_eq_true]
    exact ⟨0, List.mem_finRange _, hn⟩
  · rw [veq_iff]
  · rw [vlt_iff, keyVec_lt_iff]
    unfold visNan at hv
    rw [List.any_eq_false] at hv
    refine ⟨0, fun j hj => absurd hj (Fin.not_lt_zero j), ?_⟩
    have h1 : nanTop (vnan (S + 1) (0 : Fin (S + 1)) : Flt P.fmt) = ⊤ := (nanTop_eq_top_iff _).2 hn
    rw [h1, lt_top_iff_ne_top]
    intro h2
    exact hv 0 (List.mem_finRange _) ((nanTop_eq_top_iff _).1 h2)

/-- The least corner of a list of points can be computed by starting with `vec::max()`: the result is a lower bound of all finite points in every
component, and it is attained if there is a point. -/
theorem C118_fold_min (P : BinPar) {S : ℕ} (l : List (Vec (Flt P.fmt) S)) (hl : ∀ v ∈ l, ∀ i, (v i).isFinite) (i : Fin S) :
    (∀ v ∈ l, Cmp.le (l.foldl vmin2 (vmaxConst S) i) (v i) = true) ∧ (l ≠ [] → ∃ v ∈ l, l.foldl vmin2 (vmaxConst S) i = v i) := by
  have key : ∀ (l : List (Vec (Flt P.fmt) S)) (m : Vec (Flt P.fmt) S), (m i).isFinite → (∀ v ∈ l, ∀ i, (v i).isFinite) →
      (l.foldl vmin2 m i).isFinite ∧ (l.foldl vmin2 m i).val ≤ (m i).val ∧ (∀ v ∈ l, (l.foldl vmin2 m i).val ≤ (v i).val) ∧
      (l.foldl vmin2 m i = m i ∨ ∃ v ∈ l, l.foldl vmin2 m i = v i) := by
    intro l
    induction l with
    | nil => intro m hm _; exact ⟨hm, le_refl _, by simp, Or.inl rfl⟩
    | cons v l ih =>
      intro m hm hl
      have hv := hl v (by simp) i
      have e : vmin2 m v i = if (m i).val < (v i).val then m i else v i := by
        show (if Cmp.lt (m i) (v i) then m i else v i) = _
        rw [Flt.lt_val hm hv]
        simp
      have hf : (vmin2 m v i).isFinite := by rw [e]; split_ifs <;> assumption
      obtain ⟨h1, h2, h3, h4⟩ := ih (vmin2 m v) hf (fun w hw => hl w (by simp [hw]))
      have h5 : (vmin2 m v i).val ≤ (m i).val ∧ (vmin2 m v i).val ≤ (v i).val := by
        rw [e]; split_ifs with hc
        · exact ⟨le_refl _, hc.le⟩
        · exact ⟨not_lt.1 hc, le_refl _⟩
      rw [List.foldl_cons]
      refine ⟨h1, h2.trans h5.1, ?_, ?_⟩
      · intro w hw
        rcases List.mem_cons.1 hw with rfl | hw
        · exact h2.trans h5.2
        · exact h3 w hw
      · rcases h4 with h4 | ⟨w, hw, h4⟩
        · rw [h4, e]
          split_ifs
          · exact Or.inl rfl
          · exact Or.inr ⟨v, by simp, rfl⟩
        · exact Or.inr ⟨w, by simp [hw], h4⟩
  have hm := (C118_max P S i)
  obtain ⟨h1, h2, h3, h4⟩ := key l (vmaxConst S) hm.1 hl
  refine ⟨fun v hv => ?_, fun hne => ?_⟩
  · rw [Flt.lt_asymm_le h1 (hl v hv i)]
    exact decide_eq_true (h3 v hv)
  · rcases h4 with h4 | h4
    · obtain ⟨v, hv⟩ := List.exists_mem_of_ne_nil l hne
      refine ⟨v, hv, ?_⟩
      have h5 := h3 v hv
      rw [h4] at h5 ⊢
      have h6 := (hm.2 (v i) (hl v hv i)).1
      rw [Flt.lt_asymm_le (hl v hv i) hm.1, decide_eq_true_iff] at h6
      exact Flt.ext hm.1 (hl v hv i) (le_antisymm h5 h6)
    · exact h4

/-- The greatest corner cannot be computed by starting with `vec::min()`: if all components are not positive then the result is `vec::min()`
for every list of points, which is greater than every component of every point. -/
theorem C118_fold_max_fails (P : BinPar) {S : ℕ} (l : List (Vec (Flt P.fmt) S)) (hl : ∀ v ∈ l, ∀ i, (v i).isFinite ∧ (v i).val ≤ 0) :
    l.foldl vmax2 (vminConst S) = vminConst S ∧ ∀ v ∈ l, ∀ i, Cmp.lt (v i) (l.foldl vmax2 (vminConst S) i) = true := by
  have e : l.foldl vmax2 (vminConst S) = vminConst S := by
    induction l with
    | nil => rfl
    | cons v l ih =>
      have h1 : vmax2 (vminConst S) v = vminConst S := by
        funext i
        have h2 := (C118_min P S i).2.1 (v i) (hl v (by simp) i).1 (hl v (by simp) i).2
        show (if Cmp.lt (v i) (vminConst S i) then vminConst S i else v i) = _
        rw [h2]; rfl
      rw [List.foldl_cons, h1, ih fun w hw => hl w (by simp [hw])]
  refine ⟨e, fun v hv i => ?_⟩
  rw [e]
  exact (C118_min P S i).2.1 (v i) (hl v hv i).1 (hl v hv i).2

/-- The axis vectors: `axis(index)` is defined exactly for `index < S`; in exact arithmetic the axes are orthonormal and the dot product with
an axis is the component. -/
theorem C118_axis {K : Type*} [CommRing K] (S index : ℕ) : ((vaxisAt S index : Option (Vec K S)).isSome ↔ index < S) ∧
    ∀ a, vaxisAt S index = some a → ∃ h : index < S, (∀ v : Vec K S, dot v a = v ⟨index, h⟩) ∧
      (∀ n, vneg S index = some n → a + n = vzero S) ∧
      ∀ index' b, vaxisAt S index' = some b → dot a b = if index = index' then 1 else 0 := by
  unfold vaxisAt
  by_cases h : index < S
  · rw [dif_pos h]
    refine ⟨by simp [h], ?_⟩
    rintro a ⟨⟩
    have hd : ∀ (j : Fin S) (v : Vec K S), dot v (Function.update (vfill S 0) j 1) = v j := by
      intro j v
      rw [dot_eq_sum, Finset.sum_eq_single j]
      · simp
      · intro b _ hb
        rw [Function.update_of_ne hb]
        exact mul_zero _
      · simp
    refine ⟨h, hd _, ?_, ?_⟩
    · intro n hn
      unfold vneg vaxisAt at hn
      rw [dif_pos h] at hn
      cases hn
      exact add_neg_cancel _
    · intro index' b hb
      by_cases h' : index' < S
      · rw [dif_pos h'] at hb
        cases hb
        rw [hd]
        by_cases e : index = index'
        · subst e; simp
        · rw [if_neg e, Function.update_of_ne (by simpa using Ne.symm e)]; rfl
      · rw [dif_neg h'] at hb; cases hb
  · rw [dif_neg h]
    exact ⟨by simp [h], by rintro a ⟨⟩⟩

/-- In IEEE arithmetic the dot product of a finite vector with an axis is exactly the component. -/
theorem C118_axis_ieee (P : BinPar) (S index : ℕ) (h : index < S) (a : Vec (Flt P.fmt) S) (ha : vaxisAt S index = some a)
    (v : Vec (Flt P.fmt) S) (hv : ∀ i, (v i).isFinite) : dot v a = v ⟨index, h⟩ := by
  unfold vaxisAt at ha
  rw [dif_pos h] at ha
  cases ha
  unfold dot
  rw [Fin.foldl_eq_finRange_foldl, foldl_single_term (fun i => v i * _) ⟨index, h⟩ _ (List.nodup_finRange S) (List.mem_finRange _)]
  · rw [Function.update_self, Flt.mul_one']
  · intro j _ hj
    rw [Function.update_of_ne hj]
    exact Flt.mul_zero_fin (hv j)

/-- `neg_x` and so on have negative zeros in the other components. -/
theorem C118_neg_sign (P : BinPar) (S index : ℕ) (n : Vec (SFlt P.fmt) S) (hn : vneg S index = some n) (i : Fin S) :
    n i = if i.val = index then -1 else SFlt.negZero := by
  unfold vneg vaxisAt at hn
  by_cases h : index < S
  · rw [dif_pos h] at hn
    cases hn
    show -(Function.update (vfill S 0) (⟨index, h⟩ : Fin S) (1 : SFlt P.fmt) i) = _
    by_cases e : i = ⟨index, h⟩
    · subst e; simp
    · rw [Function.update_of_ne e, if_neg (fun h' => e (Fin.ext h'))]
      rfl
  · rw [dif_neg h] at hn; cases hn

/-- Row vector times matrix with `R` rows and `C` columns: for `C ≤ R` the first `C` components are the dot products with the columns, and the
remaining components are zero. -/
theorem C118_row_vector {T : Type*} [Zero T] [Add T] [Mul T] {R C : ℕ} (lhs : Vec T R) (rhs : Mat T R C) :
    ((vmulMatG lhs rhs).isSome ↔ C ≤ R) ∧ ∀ v, vmulMatG lhs rhs = some v →
      ∀ i : Fin R, v i = if h : i.val < C then dot lhs (rhs ⟨i, h⟩) else 0 := by
  have key : ∀ (l : List (Fin C)) (v : Vec T R), ((∀ c ∈ l, c.val < R) → l.foldl (fun result (c : Fin C) => result.bind fun v =>
      if h : c.val < R then some (Function.update v ⟨c.val, h⟩ (dot lhs (rhs c))) else none) (some v) =
        some fun (i : Fin R) => if h : i.val < C then (if (⟨i.val, h⟩ : Fin C) ∈ l then dot lhs (rhs ⟨i.val, h⟩) else v i) else v i) ∧
      ((∃ c ∈ l, R ≤ c.val) → l.foldl (fun result (c : Fin C) => result.bind fun v =>
      if h : c.val < R then some (Function.update v ⟨c.val, h⟩ (dot lhs (rhs c))) else none) (some v) = none) := by
    intro l
    induction l with
    | nil => intro v; exact ⟨fun _ => by simp, by simp⟩
    | cons c l ih =>
      intro v
      rw [List.foldl_cons]
      show (_ → List.foldl _ (if h : c.val < R then some (Function.update v ⟨c.val, h⟩ (dot lhs (rhs c))) else none) l = _) ∧
        (_ → List.foldl _ (if h : c.val < R then some (Function.update v ⟨c.val, h⟩ (dot lhs (rhs c))) else none) l = _)
      by_cases hc : c.val < R
      · rw [dif_pos hc]
        refine ⟨fun h => ?_, fun ⟨d, hd, hd'⟩ => ?_⟩
        · rw [(ih _).1 fun d hd => h d (by simp [hd])]
          congr 1
          funext i
          by_cases hi : i.val < C
          · rw [dif_pos hi, dif_pos hi]
            by_cases e : c = ⟨i, hi⟩
            · subst e
              simp
            · have e' : i ≠ ⟨c.val, hc⟩ := fun h' => e (Fin.ext (congrArg Fin.val h').symm)
              rw [Function.update_of_ne e']
              simp [Ne.symm e]
          · rw [dif_neg hi, dif_neg hi, Function.update_of_ne]
            intro h'
            apply hi
            rw [h']
            exact c.isLt
        · rcases List.mem_cons.1 hd with rfl | hd
          · omega
          · exact (ih _).2 ⟨d, hd, hd'⟩
      · rw [dif_neg hc]
        refine ⟨fun h => absurd (h c (by simp)) hc, fun _ => ?_⟩
        have hnone : ∀ l : List (Fin C), l.foldl (fun (result : Option (Vec T R)) (c : Fin C) => result.bind fun v =>
            if h : c.val < R then some (Function.update v ⟨c.val, h⟩ (dot lhs (rhs c))) else none) none = none := by
          intro l
          induction l with
          | nil => rfl
          | cons d l ih => exact ih
        exact hnone l
  have h := key (List.finRange C) (vfill R 0)
  unfold vmulMatG
  by_cases hCR : C ≤ R
  · rw [h.1 fun c _ => lt_of_lt_of_le c.isLt hCR]
    refine ⟨by simp [hCR], ?_⟩
    rintro v ⟨⟩ i
    beta_reduce
    by_cases hi : i.val < C
    · rw [dif_pos hi, dif_pos hi, if_pos (List.mem_finRange _)]
    · rw [dif_neg hi, dif_neg hi]; rfl
  · rw [h.2 ⟨⟨R, by omega⟩, List.mem_finRange _, le_refl _⟩]
    exact ⟨by simp [hCR], by rintro v ⟨⟩⟩

/-- For square matrices this is the function of C37 and C103. -/
theorem C118_row_vector_square {T : Type*} [Zero T] [Add T] [Mul T] {S : ℕ} (lhs : Vec T S) (rhs : Mat T S S) :
    vmulMatG lhs rhs = some (vmulMat lhs rhs) := by
  have h := C118_row_vector lhs rhs
  obtain ⟨v, hv⟩ := Option.isSome_iff_exists.1 (h.1.2 (le_refl S))
  rw [hv]
  congr 1
  funext i
  rw [h.2 v hv i, dif_pos i.isLt]
  rfl

/-- `rbegin` to `rend` is the same sequence as `begin` to `end`; it is the reversed sequence only if the vertices are a palindrome, so never for
two or more distinct vertices. -/
theorem C118_reverse_iteration_fails {T : Type*} {S : ℕ} (p : Polygon T S) (h : p.range.Nodup) (h2 : 2 ≤ p.range.length) :
    p.rrange = p.range ∧ p.rrange ≠ p.range.reverse := by
  refine ⟨rfl, fun e => ?_⟩
  change p.range = p.range.reverse at e
  obtain ⟨a, b, l, hl⟩ : ∃ a b l, p.range = a :: b :: l := by
    match hp : p.range, h2 with
    | a :: b :: l, _ => exact ⟨a, b, l, rfl⟩
  rw [hl] at e h
  have h1 : (a :: b :: l).getLast? = some a := by
    rw [e, List.getLast?_reverse]; rfl
  rw [List.getLast?_cons_cons] at h1
  exact (List.nodup_cons.1 h).1 (List.mem_of_getLast? h1)

/-- `vec::get_vertices` appends the given vectors in order. -/
theorem C118_get_vertices {T : Type*} {S : ℕ} (l : List (Vec T S)) : vgetVertices l = l := by
  have key : ∀ (l out : List (Vec T S)), l.foldl (fun out v => out ++ [v]) out = out ++ l := by
    intro l
    induction l with
    | nil => intro out; simp
    | cons v l ih => intro out; rw [List.foldl_cons, ih]; simp
  exact (key l []).trans (List.nil_append l)

/-- `from_points(cur, end, get)` does not apply `get`: with a `get` that exchanges two coordinates the plane through the images has the opposite
normal, but the result is the plane through the elements of the range. -/
theorem C118_from_points_get_fails : ∃ (get : Vec ℝ 3 → Vec ℝ 3) (l : List (Vec ℝ 3)),
    Plane.fromPointsGet get l = Plane.fromPointsRange l ∧ Plane.fromPointsGet get l ≠ Plane.fromPointsRange (l.map get) := by
  refine ⟨fun v => ![v 1, v 0, v 2], [![0, 0, 0], ![0, 1, 0], ![1, 0, 0]], rfl, fun h => ?_⟩
  have hv1 : (![1, 0, 0] - ![0, 0, 0] : Vec ℝ 3) = ![1, 0, 0] := by ext i; fin_cases i <;> simp
  have hv2 : (![0, 1, 0] - ![0, 0, 0] : Vec ℝ 3) = ![0, 1, 0] := by ext i; fin_cases i <;> simp
  have hc1 : cross ![1, 0, 0] ![0, 1, 0] = (![0, 0, 1] : Vec ℝ 3) := by ext i; fin_cases i <;> simp [cross]
  have hc2 : cross ![0, 1, 0] ![1, 0, 0] = (![0, 0, -1] : Vec ℝ 3) := by ext i; fin_cases i <;> simp [cross]
  have l1 : length (![1, 0, 0] : Vec ℝ 3) = 1 := by simp [length, squaredLength, dot3]
  have l2 : length (![0, 1, 0] : Vec ℝ 3) = 1 := by simp [length, squaredLength, dot3]
  have l3 : length (![0, 0, 1] : Vec ℝ 3) = 1 := by simp [length, squaredLength, dot3]
  have l4 : length (![0, 0, -1] : Vec ℝ 3) = 1 := by simp [length, squaredLength, dot3]
  have ha : ¬ (1 : ℝ) < Plane.angleEpsilon := by unfold Plane.angleEpsilon; norm_num
  have n1 : normalize (![0, 0, 1] : Vec ℝ 3) = some ![0, 0, 1] := by
    simp only [normalize, l3, one_ne_zero, if_false]
    congr 1
    funext i
    exact div_one _
  have n2 : normalize (![0, 0, -1] : Vec ℝ 3) = some ![0, 0, -1] := by
    simp only [normalize, l4, one_ne_zero, if_false]
    congr 1
    funext i
    exact div_one _
  have h1 : Plane.fromPoints ![0, 0, 0] ![0, 1, 0] ![1, 0, 0] = (true, some (Plane.ofAnchor ![0, 0, 0] ![0, 0, 1])) := by
    simp [Plane.fromPoints, Plane.planeNormal, hv1, hv2, hc1, l1, l2, l3, ha, n1]
  have h2 : Plane.fromPoints ![0, 0, 0] ![1, 0, 0] ![0, 1, 0] = (true, some (Plane.ofAnchor ![0, 0, 0] ![0, 0, -1])) := by
    simp [Plane.fromPoints, Plane.planeNormal, hv1, hv2, hc2, l1, l2, l4, ha, n2]
  change Plane.fromPoints ![0, 0, 0] ![0, 1, 0] ![1, 0, 0] = Plane.fromPoints ![0, 0, 0] ![1, 0, 0] ![0, 1, 0] at h
  rw [h1, h2] at h
  have h3 := congrFun (congrArg Plane.normal (Option.some.inj (Prod.mk.inj h).2)) 2
  change (1 : ℝ) = -1 at h3
  norm_num at h3

/-! The hypotheses are met by non-trivial vectors, matrices and polygons. -/

example : ((vmaxConst 3 : Vec (Flt binary64.fmt) 3) 2).val = (2 ^ 53 - 1) * 2 ^ 971 ∧
    ((vminConst 3 : Vec (Flt binary64.fmt) 3) 2).val = 1 / 2 ^ 1022 := by
  constructor
  · show (Limits.max : Flt binary64.fmt).val = _
    rw [max_eq]; rfl
  · show (Limits.min : Flt binary64.fmt).val = _
    rw [min_eq]
    show (2 : ℚ) ^ (-1074 + (53 : ℕ) - 1 : ℤ) = _
    rw [show (-1074 + (53 : ℕ) - 1 : ℤ) = -(1022 : ℕ) by norm_num, zpow_neg, zpow_natCast, one_div]

example : Cmp.lt (0 : Flt binary32.fmt) ((vminConst 2 : Vec (Flt binary32.fmt) 2) 1) = true :=
  (C118_min binary32 2 1).2.1 0 Flt.zero_finite (le_refl _)

example : ((vminConst 3 : Vec (SInt 32) 3) 0).toInt = some (-2147483648) ∧ ((vmaxConst 3 : Vec (SInt 32) 3) 0).toInt = some 2147483647 := by
  decide

example : ∃ l : List (Vec (Flt binary64.fmt) 2), l.length = 3 ∧ (∀ v ∈ l, ∀ i, (v i).isFinite ∧ (v i).val ≤ 0) :=
  ⟨[![0, -1], ![-1, 0], ![-1, -1]], rfl, by
    have h0 : (0 : Flt binary64.fmt).isFinite ∧ (0 : Flt binary64.fmt).val ≤ 0 := ⟨trivial, le_refl _⟩
    intro v hv i
    fin_cases hv <;> fin_cases i <;> exact h0⟩

example : vmulMatG (![2, 3, 5] : Vec ℤ 3) ![![1, 10, 100], ![7, 0, 1]] = some ![532, 19, 0] := by decide

example : vmulMatG (![2, 3] : Vec ℤ 2) ![![1, 10], ![7, 0], ![4, 4]] = none := by decide

example : (vaxisAt 3 1 : Option (Vec ℤ 3)) = some ![0, 1, 0] ∧ (vneg 3 2 : Option (Vec ℤ 3)) = some ![0, 0, -1] ∧
    (vaxisAt 3 3 : Option (Vec ℤ 3)) = none := by decide

example : ∃ p : Polygon ℤ 2, p.range.Nodup ∧ 2 ≤ p.range.length := ⟨⟨[![0, 0], ![1, 0], ![0, 1]]⟩, by decide, by decide⟩

end vm
