import Verif.Lemmas.FltCmp

/-! # C98: comparison with a tolerance in IEEE arithmetic

`P` is an arbitrary binary format with rounding to nearest, ties to even; `binary32` and `binary64` are instances.  `u` is `2^-p`. -/

set_option linter.unusedSectionVars false
set_option linter.unusedSimpArgs false

namespace vm
open BinPar
variable {P : BinPar} {S : ℕ}

/-! ### `is_equal` of scalars -/

theorem isEqual_flt {a b eps : Flt P.fmt} (ha : a.isFinite) (hb : b.isFinite) (he : eps.isFinite) :
    isEqual a b eps = decide (P.fl |a.val - b.val| ≤ eps.val) := by
  unfold isEqual
  rw [Flt.sub_eq ha hb, Flt.abs_round, Flt.round_le he]

/-- Numbers within the tolerance are always reported equal. -/
theorem C98_scalar_complete (a b eps : Flt P.fmt) (ha : a.isFinite) (hb : b.isFinite) (he : eps.isFinite)
    (h : |a.val - b.val| ≤ eps.val) : isEqual a b eps = true := by
  rw [isEqual_flt ha hb he, decide_eq_true_eq]
  exact P.fl_le_of_rep (Flt.rep_val eps).1 h

/-- Numbers reported equal differ by at most the tolerance, up to one rounding error. -/
theorem C98_scalar_sound (a b eps : Flt P.fmt) (ha : a.isFinite) (hb : b.isFinite) (he : eps.isFinite)
    (h : isEqual a b eps = true) : |a.val - b.val| * (1 - P.u) ≤ eps.val := by
  rw [isEqual_flt ha hb he, decide_eq_true_eq] at h
  have h1 : |P.fl (|a.val - b.val|) - (|a.val - b.val|)| ≤ P.u * |a.val - b.val| := by
    rcases le_total 0 (a.val - b.val) with h0 | h0
    · rw [abs_of_nonneg h0]
      have := fl_sub_err_u (Flt.rep_val a).1 (Flt.rep_val b).1
      rwa [abs_of_nonneg h0] at this
    · rw [abs_of_nonpos h0, neg_sub]
      have := fl_sub_err_u (Flt.rep_val b).1 (Flt.rep_val a).1
      rwa [abs_of_nonneg (by linarith : 0 ≤ b.val - a.val)] at this
  have h2 := (abs_le.1 h1).1
  linarith

/-- With tolerance zero `is_equal` is equality, even for the least numbers. -/
theorem C98_scalar_zero (a b : Flt P.fmt) (ha : a.isFinite) (hb : b.isFinite) : isEqual a b 0 = true ↔ a = b := by
  constructor
  · intro h
    have h1 := C98_scalar_sound a b 0 ha hb Flt.zero_finite h
    have h2 := P.u_le
    rw [Flt.zero_val] at h1
    have h3 : |a.val - b.val| ≤ 0 := by nlinarith [abs_nonneg (a.val - b.val)]
    have h4 : a.val = b.val := by linarith [abs_nonpos_iff.1 h3]
    obtain ⟨h5, h6⟩ := Flt.eq_fin ha
    obtain ⟨h7, h8⟩ := Flt.eq_fin hb
    rw [h6, h8]
    exact fin_congr _ h4
  · rintro rfl
    refine C98_scalar_complete a a 0 ha hb Flt.zero_finite ?_
    rw [sub_self, abs_zero, Flt.zero_val]

theorem abs_neg_flt (x : Flt P.fmt) : vm.abs (-x) = vm.abs x := by
  rcases x with _ | _ | _ | ⟨q, hq⟩
  · rfl
  · rfl
  · rfl
  · have e1 : (Flt.fin q hq : Flt P.fmt) = Flt.round q := (round_rep hq).symm
    rw [e1, ← Flt.round_neg, Flt.abs_round, Flt.abs_round, abs_neg]

/-- `is_equal` is symmetric for all values, NaN and the infinities included. -/
theorem C98_scalar_symmetric (a b eps : Flt P.fmt) : isEqual a b eps = isEqual b a eps := by
  unfold isEqual
  rw [← Flt.neg_sub' b a, abs_neg_flt]

/-- NaN equals nothing, an infinity does not equal itself, and with an infinite tolerance all finite numbers are equal. -/
theorem C98_scalar_special (a b eps : Flt P.fmt) :
    isEqual Flt.nan b eps = false ∧ isEqual a Flt.nan eps = false ∧ isEqual a b Flt.nan = false ∧
    isEqual Flt.pinf Flt.pinf eps = false ∧ isEqual Flt.ninf Flt.ninf eps = false ∧
    (a.isFinite → b.isFinite → isEqual a b Flt.pinf = true) := by
  have hn : IEEE.key (Flt.nan : Flt P.fmt) = none := rfl
  have habs : vm.abs (Flt.nan : Flt P.fmt) = Flt.nan := rfl
  have key : ∀ x y : Flt P.fmt, x - y = Flt.nan → isEqual x y eps = false := by
    intro x y h
    unfold isEqual
    rw [h, habs]
    exact le_false_of_none_left hn
  refine ⟨key _ _ ?_, key _ _ ?_, le_false_of_none_right hn, key _ _ rfl, key _ _ rfl, fun ha hb => ?_⟩
  · rcases b with _ | _ | _ | ⟨q, hq⟩ <;> rfl
  · rcases a with _ | _ | _ | ⟨q, hq⟩ <;> rfl
  · unfold isEqual
    rw [Flt.sub_eq ha hb, Flt.abs_round]
    have : ∃ x, IEEE.key (Flt.round |a.val - b.val| : Flt P.fmt) = some x := by
      rcases lt_or_ge (|P.fl (|a.val - b.val|)|) P.bound with h | h
      · exact ⟨_, Flt.key_fin (Flt.round_finite.2 h)⟩
      · rw [abs_of_nonneg (P.fl_nonneg (abs_nonneg _))] at h
        rw [Flt.round_pinf h]
        exact ⟨_, rfl⟩
    obtain ⟨x, hx⟩ := this
    rw [le_of_keys hx (show IEEE.key (Flt.pinf : Flt P.fmt) = some (((⊤ : WithTop ℚ) : WithBot (WithTop ℚ)) : Ext) from rfl)]
    exact decide_eq_true (Ext.le_top' x)

/-! ### `compare` and `is_equal` of vectors -/

theorem compareStep_flt {a b eps : Flt P.fmt} (ha : a.isFinite) (hb : b.isFinite) (he : eps.isFinite) :
    compareStep a b eps =
      if a.val < P.fl (b.val - eps.val) then some (-1) else if P.fl (b.val + eps.val) < a.val then some 1 else none := by
  unfold compareStep
  simp only [Flt.eq_self ha, Flt.eq_self hb, Bool.not_true, Bool.not_false, Bool.false_and, Bool.and_false, Bool.and_true,
    Bool.false_eq_true, if_false, if_true, Bool.true_and]
  rw [Flt.sub_eq hb he, Flt.add_eq hb he, Flt.lt_round ha, Flt.round_lt ha]
  by_cases h1 : a.val < P.fl (b.val - eps.val)
  · simp [h1]
  · by_cases h2 : P.fl (b.val + eps.val) < a.val
    · simp [h1, h2]
    · simp [h1, h2]

theorem step_neg {a b eps : Flt P.fmt} (ha : a.isFinite) (hb : b.isFinite) (he : eps.isFinite)
    (h : compareStep a b eps = some (-1)) : a.val + eps.val < b.val := by
  rw [compareStep_flt ha hb he] at h
  by_cases h1 : a.val < P.fl (b.val - eps.val)
  · by_contra hc
    exact absurd (P.fl_le_of_rep (Flt.rep_val a).1 (show b.val - eps.val ≤ a.val by linarith)) (not_le.2 h1)
  · rw [if_neg h1] at h
    by_cases h2 : P.fl (b.val + eps.val) < a.val
    · rw [if_pos h2] at h; simp at h
    · rw [if_neg h2] at h; simp at h

theorem step_pos {a b eps : Flt P.fmt} (ha : a.isFinite) (hb : b.isFinite) (he : eps.isFinite)
    (h : compareStep a b eps = some 1) : b.val + eps.val < a.val := by
  rw [compareStep_flt ha hb he] at h
  by_cases h1 : a.val < P.fl (b.val - eps.val)
  · rw [if_pos h1] at h; simp at h
  · rw [if_neg h1] at h
    by_cases h2 : P.fl (b.val + eps.val) < a.val
    · by_contra hc
      exact absurd (P.le_fl_of_rep (Flt.rep_val a).1 (show a.val ≤ b.val + eps.val by linarith)) (not_le.2 h2)
    · rw [if_neg h2] at h; simp at h

theorem step_none {a b eps : Flt P.fmt} (ha : a.isFinite) (hb : b.isFinite) (he : eps.isFinite) (h0 : 0 ≤ eps.val)
    (h : compareStep a b eps = none) : |a.val - b.val| ≤ eps.val + P.u * (|b.val| + eps.val) := by
  rw [compareStep_flt ha hb he] at h
  by_cases h1 : a.val < P.fl (b.val - eps.val)
  · rw [if_pos h1] at h; simp at h
  · rw [if_neg h1] at h
    by_cases h2 : P.fl (b.val + eps.val) < a.val
    · rw [if_pos h2] at h; simp at h
    · have e1 := (abs_le.1 (fl_sub_err_u (Flt.rep_val b).1 (Flt.rep_val eps).1)).1
      have e2 := (abs_le.1 (fl_add_err_u (Flt.rep_val b).1 (Flt.rep_val eps).1)).2
      have hu := P.u_pos
      have t1 : |b.val - eps.val| ≤ |b.val| + eps.val := by
        have := abs_sub b.val eps.val; rwa [abs_of_nonneg h0] at this
      have t2 : |b.val + eps.val| ≤ |b.val| + eps.val := by
        have := abs_add_le b.val eps.val; rwa [abs_of_nonneg h0] at this
      have t3 := mul_le_mul_of_nonneg_left t1 hu.le
      have t4 := mul_le_mul_of_nonneg_left t2 hu.le
      rw [abs_le]
      constructor <;> linarith

/-- Vectors whose components are all within the tolerance are always reported equal. -/
theorem C98_vec_complete (a b : Vec (Flt P.fmt) S) (eps : Flt P.fmt) (ha : ∀ i, (a i).isFinite) (hb : ∀ i, (b i).isFinite)
    (he : eps.isFinite) (h : ∀ i, |(a i).val - (b i).val| ≤ eps.val) : visEqual a b eps = true := by
  unfold visEqual vcompare
  rw [(findSome_finRange_eq_none _).2]
  · rfl
  · intro i
    have hi := abs_le.1 (h i)
    rw [compareStep_flt (ha i) (hb i) he,
      if_neg (not_lt.2 (P.fl_le_of_rep (Flt.rep_val (a i)).1 (by linarith))),
      if_neg (not_lt.2 (P.le_fl_of_rep (Flt.rep_val (a i)).1 (by linarith)))]

/-- Vectors reported equal are equal up to the tolerance and one rounding error in each component. -/
theorem C98_vec_sound (a b : Vec (Flt P.fmt) S) (eps : Flt P.fmt) (ha : ∀ i, (a i).isFinite) (hb : ∀ i, (b i).isFinite)
    (he : eps.isFinite) (h0 : 0 ≤ eps.val) (h : visEqual a b eps = true) (i : Fin S) :
    |(a i).val - (b i).val| ≤ eps.val + P.u * (|(b i).val| + eps.val) := by
  unfold visEqual vcompare at h
  rcases hf : (List.finRange S).findSome? fun i => compareStep (a i) (b i) eps with _ | r
  · exact step_none (ha i) (hb i) he h0 ((findSome_finRange_eq_none _).1 hf i)
  · exfalso
    rw [hf] at h
    obtain ⟨j, hj, _⟩ := (findSome_finRange_eq_some _ _).1 hf
    rw [compareStep_flt (ha j) (hb j) he] at hj
    have : r = 0 := by simpa using h
    subst this
    by_cases h1 : (a j).val < P.fl ((b j).val - eps.val)
    · rw [if_pos h1] at hj; simp at hj
    · rw [if_neg h1] at hj
      by_cases h2 : P.fl ((b j).val + eps.val) < (a j).val
      · rw [if_pos h2] at hj; simp at hj
      · rw [if_neg h2] at hj; simp at hj

/-- A difference reported by `compare` is real: some component differs by more than the tolerance, in the reported direction and exactly,
and all components before it are equal up to the tolerance and a rounding error. -/
theorem C98_compare_sound (a b : Vec (Flt P.fmt) S) (eps : Flt P.fmt) (ha : ∀ i, (a i).isFinite) (hb : ∀ i, (b i).isFinite)
    (he : eps.isFinite) (h0 : 0 ≤ eps.val) :
    (vcompare a b eps < 0 → ∃ i, (a i).val + eps.val < (b i).val ∧
      ∀ j < i, |(a j).val - (b j).val| ≤ eps.val + P.u * (|(b j).val| + eps.val)) ∧
    (0 < vcompare a b eps → ∃ i, (b i).val + eps.val < (a i).val ∧
      ∀ j < i, |(a j).val - (b j).val| ≤ eps.val + P.u * (|(b j).val| + eps.val)) := by
  unfold vcompare
  rcases hf : (List.finRange S).findSome? fun i => compareStep (a i) (b i) eps with _ | r
  · exact ⟨fun h => absurd h (by simp), fun h => absurd h (by simp)⟩
  · obtain ⟨j, hj, hlt⟩ := (findSome_finRange_eq_some _ _).1 hf
    have hnone := fun k hk => step_none (ha k) (hb k) he h0 (hlt k hk)
    have hr : r = -1 ∨ r = 1 := by
      rw [compareStep_flt (ha j) (hb j) he] at hj
      by_cases h1 : (a j).val < P.fl ((b j).val - eps.val)
      · rw [if_pos h1] at hj; left; simpa using hj.symm
      · rw [if_neg h1] at hj
        by_cases h2 : P.fl ((b j).val + eps.val) < (a j).val
        · rw [if_pos h2] at hj; right; simpa using hj.symm
        · rw [if_neg h2] at hj; simp at hj
    rcases hr with rfl | rfl
    · exact ⟨fun _ => ⟨j, step_neg (ha j) (hb j) he hj, hnone⟩, fun h => absurd h (by simp)⟩
    · exact ⟨fun h => absurd h (by simp), fun _ => ⟨j, step_pos (ha j) (hb j) he hj, hnone⟩⟩

/-! ### The tolerance breaks the symmetry -/

/-- `1 - 2^-p`, the number before 1. -/
def predOne (P : BinPar) : ℚ := 1 - P.u

theorem rep_pow_neg {k : ℕ} (h : k ≤ 2 * P.p) : P.fmt.rep (2 ^ (-(k : ℤ))) := by
  have h1 : (2 : ℚ) ^ (-(k : ℤ)) ≤ 1 := by
    calc (2 : ℚ) ^ (-(k : ℤ)) ≤ 2 ^ (0 : ℤ) := zpow_le_zpow_right₀ (by norm_num) (by omega)
      _ = 1 := zpow_zero _
  refine ⟨⟨1, -(k : ℤ), by simp, ?_, ?_⟩, ?_⟩
  · rw [abs_one]; exact one_lt_pow₀ (by norm_num) (by have := P.hp; omega)
  · have := P.hmin; omega
  · rw [abs_of_pos (two_zpow_pos _)]
    exact lt_of_le_of_lt h1 P.one_lt_bound

theorem rep_predOne : P.fmt.rep (predOne P) := by
  have hp := P.hp
  have hu := P.u_pos
  have hu8 := P.u_le
  refine ⟨⟨2 ^ P.p - 1, -(P.p : ℤ), ?_, ?_, ?_⟩, ?_⟩
  · unfold predOne u
    push_cast
    rw [sub_mul, one_mul, zpow_neg, zpow_natCast, mul_inv_cancel₀ (by positivity)]
  · rw [abs_of_nonneg (by have : (1 : ℤ) ≤ 2 ^ P.p := one_le_pow₀ (by norm_num); linarith)]; linarith
  · have := P.hmin; omega
  · unfold predOne
    rw [abs_of_pos (by linarith)]
    linarith [P.one_lt_bound]

theorem half_u : P.u / 2 = 2 ^ (-((P.p + 1 : ℕ) : ℤ)) := by
  unfold u
  push_cast
  rw [neg_add, zpow_add2]
  norm_num
  ring

/-- The midpoint between the number before 1 and 1 is rounded to 1. -/
theorem fl_tie_one : P.fl (1 - P.u / 2) = 1 := by
  have hu := P.u_pos
  have hu8 := P.u_le
  have hp := P.hp
  have e : (2 : ℚ) ^ P.p * 2 ^ (-(P.p : ℤ)) = 1 := by rw [zpow_neg, zpow_natCast, mul_inv_cancel₀ (by positivity)]
  have h := fl_eval_even (P := P) (q := 1 - P.u / 2) (-(P.p : ℤ)) (2 ^ P.p) (by have := P.hmin; omega) ?_ ?_ ?_ ?_
  · rw [h]; push_cast; exact e
  · rw [abs_of_pos (by linarith)]
    have : -(P.p : ℤ) + P.p - 1 = -1 := by ring
    rw [this, zpow_neg_one]; linarith
  · rw [abs_of_pos (by linarith), neg_add_cancel, zpow_zero]; linarith
  · have h1 : (1 - P.u / 2) / 2 ^ (-(P.p : ℤ)) = 2 ^ P.p - 1 / 2 := by
      unfold u
      have h2 := two_zpow_pos (-(P.p : ℤ))
      rw [div_eq_iff h2.ne', sub_mul, e]; ring
    rw [h1]; push_cast
    norm_num
  · obtain ⟨k, hk⟩ : ∃ k, P.p = k + 1 := ⟨P.p - 1, by omega⟩
    rw [hk, pow_succ]; omega

/-- `is_equal` of vectors with a tolerance is not symmetric, and disagrees with `is_equal` of scalars: the numbers `1 - 2^-p` and `1` with
the tolerance `2^-(p+1)`. -/
theorem C98_vec_symmetric_fails (P : BinPar) : ∃ a b eps : Flt P.fmt, a.isFinite ∧ b.isFinite ∧ 0 < eps.val ∧
    visEqual ![a] ![b] eps = false ∧ visEqual ![b] ![a] eps = true ∧ isEqual b a eps = false := by
  have hu := P.u_pos
  have hr : P.fmt.rep (P.u / 2) := by rw [half_u]; exact rep_pow_neg (by have := P.hp; omega)
  refine ⟨Flt.fin (F := P.fmt) (predOne P) rep_predOne, 1, Flt.fin (F := P.fmt) (P.u / 2) hr, trivial, trivial,
    show 0 < P.u / 2 by linarith, ?_, ?_, ?_⟩
  · unfold visEqual vcompare
    have : compareStep (Flt.fin (F := P.fmt) (predOne P) rep_predOne) (1 : Flt P.fmt) (Flt.fin (F := P.fmt) (P.u / 2) hr) = some (-1) := by
      refine (compareStep_flt (by trivial) (by trivial) (by trivial)).trans ?_
      refine if_pos ?_
      show predOne P < P.fl (1 - P.u / 2)
      rw [fl_tie_one]; unfold predOne; linarith
    have h2 : ((List.finRange 1).findSome? fun i => compareStep
        ((![Flt.fin (F := P.fmt) (predOne P) rep_predOne] : Vec (Flt P.fmt) 1) i) ((![1] : Vec (Flt P.fmt) 1) i)
        (Flt.fin (F := P.fmt) (P.u / 2) hr)) = some (-1) :=
      (findSome_finRange_eq_some _ _).2 ⟨0, this, fun j hj => absurd hj (by simp)⟩
    rw [h2]; rfl
  · unfold visEqual vcompare
    have h2 : ((List.finRange 1).findSome? fun i => compareStep
        ((![1] : Vec (Flt P.fmt) 1) i) ((![Flt.fin (F := P.fmt) (predOne P) rep_predOne] : Vec (Flt P.fmt) 1) i)
        (Flt.fin (F := P.fmt) (P.u / 2) hr)) = none := by
      refine (findSome_finRange_eq_none _).2 fun i => ?_
      have : i = 0 := by omega
      subst this
      show compareStep (1 : Flt P.fmt) (Flt.fin (F := P.fmt) (predOne P) rep_predOne) (Flt.fin (F := P.fmt) (P.u / 2) hr) = none
      refine (compareStep_flt (by trivial) (by trivial) (by trivial)).trans ?_
      have h3 : ¬ (1 : ℚ) < P.fl (predOne P - P.u / 2) :=
        not_lt.2 (P.fl_le_of_rep P.rep_one (by unfold predOne; linarith))
      have h4 : ¬ P.fl (predOne P + P.u / 2) < 1 := by
        have : predOne P + P.u / 2 = 1 - P.u / 2 := by unfold predOne; ring
        rw [this, fl_tie_one]; exact lt_irrefl _
      exact (if_neg h3).trans (if_neg h4)
    rw [h2]; rfl
  · refine (isEqual_flt (by trivial) (by trivial) (by trivial)).trans (decide_eq_false ?_)
    show ¬ P.fl |1 - predOne P| ≤ P.u / 2
    have : |1 - predOne P| = P.u := by unfold predOne; rw [sub_sub_cancel, abs_of_pos hu]
    have h5 : P.Rep P.u := (rep_pow_neg (by omega : P.p ≤ 2 * P.p)).1
    rw [this, P.fl_rep h5]
    linarith

/-- With a tolerance `compare` is not antisymmetric: each of two vectors precedes the other. -/
theorem C98_compare_antisymmetric_fails (P : BinPar) : ∃ (a b : Vec (Flt P.fmt) 2) (eps : Flt P.fmt),
    (∀ i, (a i).isFinite) ∧ (∀ i, (b i).isFinite) ∧ 0 < eps.val ∧ vcompare a b eps = -1 ∧ vcompare b a eps = -1 := by
  have hu := P.u_pos
  have hu8 := P.u_le
  have hr : P.fmt.rep (P.u / 2) := by rw [half_u]; exact rep_pow_neg (by have := P.hp; omega)
  refine ⟨![Flt.fin (F := P.fmt) (predOne P) rep_predOne, 1], ![1, 0], Flt.fin (F := P.fmt) (P.u / 2) hr, ?_, ?_,
    show 0 < P.u / 2 by linarith, ?_, ?_⟩
  · intro i; fin_cases i <;> trivial
  · intro i; fin_cases i <;> trivial
  · unfold vcompare
    have h2 : ((List.finRange 2).findSome? fun i => compareStep
        ((![Flt.fin (F := P.fmt) (predOne P) rep_predOne, 1] : Vec (Flt P.fmt) 2) i) ((![1, 0] : Vec (Flt P.fmt) 2) i)
        (Flt.fin (F := P.fmt) (P.u / 2) hr)) = some (-1) := by
      refine (findSome_finRange_eq_some _ _).2 ⟨0, ?_, fun j hj => absurd hj (by simp)⟩
      show compareStep (Flt.fin (F := P.fmt) (predOne P) rep_predOne) (1 : Flt P.fmt) (Flt.fin (F := P.fmt) (P.u / 2) hr) = some (-1)
      refine (compareStep_flt (by trivial) (by trivial) (by trivial)).trans ?_
      refine if_pos ?_
      show predOne P < P.fl (1 - P.u / 2)
      rw [fl_tie_one]; unfold predOne; linarith
    rw [h2]; rfl
  · unfold vcompare
    have h2 : ((List.finRange 2).findSome? fun i => compareStep
        ((![1, 0] : Vec (Flt P.fmt) 2) i) ((![Flt.fin (F := P.fmt) (predOne P) rep_predOne, 1] : Vec (Flt P.fmt) 2) i)
        (Flt.fin (F := P.fmt) (P.u / 2) hr)) = some (-1) := by
      refine (findSome_finRange_eq_some _ _).2 ⟨1, ?_, fun j hj => ?_⟩
      · show compareStep (0 : Flt P.fmt) (1 : Flt P.fmt) (Flt.fin (F := P.fmt) (P.u / 2) hr) = some (-1)
        refine (compareStep_flt (by trivial) (by trivial) (by trivial)).trans ?_
        refine if_pos ?_
        show 0 < P.fl (1 - P.u / 2)
        rw [fl_tie_one]; exact one_pos
      · have : j = 0 := by revert hj; fin_cases j <;> simp
        subst this
        show compareStep (1 : Flt P.fmt) (Flt.fin (F := P.fmt) (predOne P) rep_predOne) (Flt.fin (F := P.fmt) (P.u / 2) hr) = none
        refine (compareStep_flt (by trivial) (by trivial) (by trivial)).trans ?_
        have h3 : ¬ (1 : ℚ) < P.fl (predOne P - P.u / 2) :=
          not_lt.2 (P.fl_le_of_rep P.rep_one (by unfold predOne; linarith))
        have h4 : ¬ P.fl (predOne P + P.u / 2) < 1 := by
          have : predOne P + P.u / 2 = 1 - P.u / 2 := by unfold predOne; ring
          rw [this, fl_tie_one]; exact lt_irrefl _
        exact (if_neg h3).trans (if_neg h4)
    rw [h2]; rfl

/-- `3` and `5` are equal with the tolerance `2`, but not with the tolerance `1`. -/
example (f : ℕ → Flt binary32.fmt) (hf : ∀ n, n ≤ 5 → (f n).isFinite ∧ (f n).val = n) :
    isEqual (f 3) (f 5) (f 2) = true ∧ isEqual (f 3) (f 5) (f 1) = false := by
  have h3 := hf 3 (by norm_num)
  have h5 := hf 5 (by norm_num)
  have h2 := hf 2 (by norm_num)
  have h1 := hf 1 (by norm_num)
  refine ⟨C98_scalar_complete _ _ _ h3.1 h5.1 h2.1 (by rw [h3.2, h5.2, h2.2]; norm_num), ?_⟩
  by_contra hc
  have h := C98_scalar_sound _ _ _ h3.1 h5.1 h1.1 (by simpa using hc)
  have := binary32.u_le
  rw [h3.2, h5.2, h1.2] at h
  norm_num at h
  linarith

/-- There are such floats. -/
example : ∃ f : ℕ → Flt binary32.fmt, ∀ n, n ≤ 5 → (f n).isFinite ∧ (f n).val = n := by
  have hr : ∀ n : ℕ, n ≤ 5 → binary32.fmt.rep n := fun n hn => by
    have h : |(n : ℤ)| ≤ 2 ^ binary32.p := by
      rw [abs_of_nonneg (by positivity)]
      have : (n : ℤ) ≤ 5 := by exact_mod_cast hn
      exact this.trans (by norm_num [binary32])
    exact_mod_cast binary32.rep_of_int h
  exact ⟨fun n => if h : n ≤ 5 then Flt.fin (F := binary32.fmt) n (hr n h) else 0, fun n hn => by
    simp only [dif_pos hn]; exact ⟨trivial, rfl⟩⟩

end vm
