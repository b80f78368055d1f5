import Verif.Lemmas.Mat
import Verif.Model.FltMat
import Verif.Lemmas.FltCmp
import Verif.Props.FltRayBBox

/-! Helper lemmas: rounding errors of the LUP decomposition and of the substitutions. -/

set_option linter.unusedSectionVars false
set_option linter.unusedSimpArgs false

namespace vm
variable {P : BinPar} {S : ℕ}

namespace BinPar

theorem log_le_fl {q : ℚ} (h : 2 ^ (P.qmin + P.p - 1) ≤ |q|) : (2 : ℚ) ^ Int.log 2 |q| ≤ |P.fl q| := by
  have h0 : q ≠ 0 := by
    rintro rfl
    rw [abs_zero] at h
    exact absurd (two_zpow_pos _) (not_lt.2 h)
  have h1 := le_log_of_le h
  have hrep : P.Rep (2 ^ Int.log 2 |q|) := by
    have := P.hp
    exact P.rep_multiple (m := 1) (e := Int.log 2 |q|) (by omega) (by
      rw [abs_of_pos (two_zpow_pos _)]; exact zpow_le_zpow_right₀ (by norm_num) (by omega)) (by push_cast; ring)
  have hl := log_le_self h0
  rcases le_total 0 q with hq | hq
  · rw [abs_of_nonneg hq] at hl hrep ⊢
    exact (P.le_fl_of_rep hrep hl).trans (le_abs_self _)
  · rw [abs_of_nonpos hq] at hl hrep ⊢
    have := P.le_fl_of_rep hrep hl
    rw [fl_neg] at this
    exact this.trans (neg_le_abs _)

/-- Error of a rounding relative to the result. -/
theorem fl_err_res (q : ℚ) : |P.fl q - q| ≤ P.u * |P.fl q| + P.eta := by
  rcases le_or_gt (2 ^ (P.qmin + P.p - 1)) |q| with h | h
  · have h0 : q ≠ 0 := by
      rintro rfl
      rw [abs_zero] at h
      exact absurd (two_zpow_pos _) (not_lt.2 h)
    have h1 := le_log_of_le h
    have h2 : P.ex q = Int.log 2 |q| + 1 - P.p := by unfold ex; omega
    have h3 := P.fl_err q
    have h4 : (2 : ℚ) ^ P.ex q = 2 * (P.u * 2 ^ Int.log 2 |q|) := by
      rw [h2, u, ← zpow_add2, ← zpow_one_add₀ (by norm_num)]; congr 1; ring
    have h6 := mul_le_mul_of_nonneg_left (log_le_fl h) P.u_pos.le
    have := P.eta_pos
    rw [h4] at h3
    linarith
  · have h1 := P.eta_pos
    have h2 := mul_nonneg P.u_pos.le (abs_nonneg (P.fl q))
    by_cases h0 : q = 0
    · subst h0; rw [P.fl_zero]; simp only [sub_zero, abs_zero, mul_zero, zero_add]; exact h1.le
    have h4 := P.fl_err q
    have h5 : P.ex q ≤ P.qmin := P.ex_le_of_lt h0 (h.trans (zpow_lt_zpow_right₀ (by norm_num) (by omega))) le_rfl
    have h6 : (2 : ℚ) ^ P.ex q ≤ 2 ^ P.qmin := zpow_le_zpow_right₀ (by norm_num) h5
    have h7 : (2 : ℚ) ^ P.qmin = 2 * P.eta := by
      rw [eta, ← zpow_one_add₀ (by norm_num)]; congr 1; ring
    linarith

/-- Sums and differences have no underflow. -/
theorem fl_sub_err_res {a b : ℚ} (ha : P.Rep a) (hb : P.Rep b) : |P.fl (a - b) - (a - b)| ≤ P.u * |P.fl (a - b)| := by
  rcases le_or_gt (2 ^ (P.qmin + P.p - 1)) |a - b| with h | h
  · have h0 : a - b ≠ 0 := by
      intro h0
      rw [h0, abs_zero] at h
      exact absurd (two_zpow_pos _) (not_lt.2 h)
    have h1 := le_log_of_le h
    have h2 : P.ex (a - b) = Int.log 2 |a - b| + 1 - P.p := by unfold ex; omega
    have h3 := P.fl_err (a - b)
    have h4 : (2 : ℚ) ^ P.ex (a - b) = 2 * (P.u * 2 ^ Int.log 2 |a - b|) := by
      rw [h2, u, ← zpow_add2, ← zpow_one_add₀ (by norm_num)]; congr 1; ring
    have h6 := mul_le_mul_of_nonneg_left (log_le_fl h) P.u_pos.le
    rw [h4] at h3
    linarith
  · obtain ⟨m, hm⟩ := ha.multiple_qmin
    obtain ⟨n, hn⟩ := hb.multiple_qmin
    have hr : P.Rep (a - b) := by
      refine P.rep_multiple le_rfl (h.le.trans ?_) (m := m - n) (by rw [hm, hn]; push_cast; ring)
      exact zpow_le_zpow_right₀ (by norm_num) (by omega)
    rw [P.fl_rep hr, sub_self, abs_zero]
    have := P.u_pos
    positivity

end BinPar

/-! ### The decomposition -/

/-- Bound of the error of an entry after `k` elimination steps. -/
def lupErr (P : BinPar) (k : ℕ) (B D : ℚ) : ℚ := ((1 + P.u) ^ k - 1) * B + k * (1 + P.u) ^ k * P.eta * (1 + D)

theorem lupErr_mono {k : ℕ} {B D B' D' : ℚ} (hB : B ≤ B') (hD : D ≤ D') : lupErr P k B D ≤ lupErr P k B' D' := by
  have hu := P.u_pos
  have he := P.eta_pos
  have hw : (1 : ℚ) ≤ (1 + P.u) ^ k := one_le_pow₀ (by linarith)
  unfold lupErr
  apply add_le_add
  · exact mul_le_mul_of_nonneg_left hB (by linarith)
  · exact mul_le_mul_of_nonneg_left (by linarith) (by positivity)

theorem lupErr_succ {k : ℕ} {B D : ℚ} (hB0 : 0 ≤ B) (hD0 : 0 ≤ D) : lupErr P k B D ≤ lupErr P (k + 1) B D := by
  have hu := P.u_pos
  have he := P.eta_pos
  have hw : (1 + P.u) ^ k ≤ (1 + P.u) ^ (k + 1) := pow_le_pow_right₀ (by linarith) (by omega)
  have hw0 : 0 ≤ (1 + P.u) ^ k := by positivity
  have hk : (k : ℚ) ≤ (k + 1 : ℕ) := by push_cast; linarith
  unfold lupErr
  apply add_le_add
  · exact mul_le_mul_of_nonneg_right (by linarith) hB0
  · refine mul_le_mul_of_nonneg_right (mul_le_mul_of_nonneg_right ?_ he.le) (by linarith)
    exact mul_le_mul hk hw hw0 (by positivity)

/-- One elimination step. -/
theorem lupErr_step {k : ℕ} {A X s m r B D D' : ℚ} (hB : 0 ≤ B) (hD : 0 ≤ D) (hD' : D ≤ D')
    (h : |A - (X + s)| ≤ lupErr P k (B + |s|) D) (hs : |s - (m + r)| ≤ P.u * (|m| + |r|) + P.eta * (1 + D')) :
    |A - (X + (m + r))| ≤ lupErr P (k + 1) (B + (|m| + |r|)) D' := by
  have hu := P.u_pos
  have he := P.eta_pos
  set N := |m| + |r| with hN
  have hN0 : 0 ≤ N := by positivity
  have hsN : |s| ≤ (1 + P.u) * N + P.eta * (1 + D') := by
    have : |s| ≤ |s - (m + r)| + |m + r| := by
      have := abs_add_le (s - (m + r)) (m + r)
      rwa [sub_add_cancel] at this
    have h2 : |m + r| ≤ N := abs_add_le _ _
    linarith
  have h1 : |A - (X + (m + r))| ≤ |A - (X + s)| + |s - (m + r)| := by
    have := abs_add_le (A - (X + s)) (s - (m + r))
    have e : A - (X + s) + (s - (m + r)) = A - (X + (m + r)) := by ring
    rwa [e] at this
  have h2 : lupErr P k (B + |s|) D ≤ lupErr P k (B + ((1 + P.u) * N + P.eta * (1 + D'))) D' :=
    lupErr_mono (by linarith) hD'
  have h3 : lupErr P k (B + ((1 + P.u) * N + P.eta * (1 + D'))) D' + (P.u * N + P.eta * (1 + D')) ≤ lupErr P (k + 1) (B + N) D' := by
    unfold lupErr
    rw [pow_succ]
    push_cast
    set w := (1 + P.u) ^ k
    have hw : 1 ≤ w := one_le_pow₀ (by linarith)
    have hD2 : 0 ≤ 1 + D' := by linarith
    have k1 : 0 ≤ w * P.u * B := by positivity
    have k2 : 0 ≤ ((k : ℚ) + 1) * w * P.u * (P.eta * (1 + D')) := by positivity
    linarith
  linarith

/-- Entries of the unit lower and upper triangular factors, multiplied, for the first `k` columns, and the remaining matrix. -/
def lupRec (a : Mat ℚ S S) (k : ℕ) (i j : Fin S) : ℚ :=
  (∑ t : Fin S, if t.val < k then lowEntry a i t * upEntry a t j else 0) + if k ≤ i.val ∧ k ≤ j.val then a j i else 0

/-- The same with absolute values. -/
def lupAbs (a : Mat ℚ S S) (k : ℕ) (i j : Fin S) : ℚ :=
  (∑ t : Fin S, if t.val < k then |lowEntry a i t| * |upEntry a t j| else 0) + if k ≤ i.val ∧ k ≤ j.val then |a j i| else 0

theorem lupAbs_nonneg (a : Mat ℚ S S) (k : ℕ) (i j : Fin S) : 0 ≤ lupAbs a k i j := by
  unfold lupAbs
  refine add_nonneg (Finset.sum_nonneg fun t _ => ?_) ?_
  · split_ifs <;> positivity
  · split_ifs <;> positivity

/-- The pivot of a column that has been eliminated. -/
def colDiag (a : Mat ℚ S S) (k : ℕ) (j : Fin S) : ℚ := if j.val < k then |a j j| else 0

theorem colDiag_nonneg (a : Mat ℚ S S) (k : ℕ) (j : Fin S) : 0 ≤ colDiag a k j := by
  unfold colDiag; split_ifs <;> positivity

/-- The state of the decomposition after `k` steps, up to rounding errors. -/
structure LupApprox (P : BinPar) (A : Mat ℚ S S) (k : ℕ) (a : Mat ℚ S S) (pi : Fin S → Fin S) : Prop where
  perm : Function.Bijective pi
  prod : ∀ i j : Fin S, |A j (pi i) - lupRec a k i j| ≤ lupErr P k (lupAbs a k i j) (colDiag a k j)

theorem lupApprox_init (A : Mat ℚ S S) : LupApprox P A 0 A (fun i => i) where
  perm := Function.bijective_id
  prod i j := by simp [lupRec, lupErr]

theorem swap_lt {k k' : Fin S} (hk : k ≤ k') {t : Fin S} (ht : t.val < k.val) : Equiv.swap k k' t = t := by
  apply Equiv.swap_apply_of_ne_of_ne
  · rintro rfl; exact lt_irrefl _ ht
  · rintro rfl; exact absurd hk (not_le.2 ht)

theorem swap_ge {k k' : Fin S} (hk : k ≤ k') {t : Fin S} (ht : k.val ≤ t.val) : k.val ≤ (Equiv.swap k k' t).val := by
  by_contra hc
  push Not at hc
  have := swap_lt hk hc
  rw [Equiv.swap_apply_self] at this
  rw [← this] at hc
  omega

theorem swap_pi {α : Type*} (pi : Fin S → α) (k k' : Fin S) :
    Function.update (Function.update pi k (pi k')) k' (pi k) = pi ∘ Equiv.swap k k' := by
  funext x
  by_cases hj : x = k'
  · subst hj; simp
  · by_cases hi : x = k
    · subst hi; simp [hj]
    · simp [hi, hj, Equiv.swap_apply_of_ne_of_ne hi hj]

theorem lowEntry_swap (a : Mat ℚ S S) {k k' : Fin S} (hk : k ≤ k') (i : Fin S) {t : Fin S} (ht : t.val < k.val) :
    lowEntry (lupSwapRows a k k') i t = lowEntry a (Equiv.swap k k' i) t := by
  by_cases hi : i.val < k.val
  · rw [swap_lt hk hi]
    simp only [lowEntry, lupSwapRows_apply, swap_lt hk hi]
  · push Not at hi
    have h1 : t < Equiv.swap k k' i := lt_of_lt_of_le ht (swap_ge hk hi)
    have h2 : t < i := lt_of_lt_of_le ht hi
    simp only [lowEntry, lupSwapRows_apply, h1, h2, if_true]

theorem upEntry_swap (a : Mat ℚ S S) {k k' : Fin S} (hk : k ≤ k') {t : Fin S} (j : Fin S) (ht : t.val < k.val) :
    upEntry (lupSwapRows a k k') t j = upEntry a t j := by
  simp only [upEntry, lupSwapRows_apply, swap_lt hk ht]

theorem lupApprox_swap {A a : Mat ℚ S S} {k : Fin S} {pi : Fin S → Fin S} (h : LupApprox P A k a pi) {k' : Fin S} (hk : k ≤ k') :
    LupApprox P A k (lupSwapRows a k k') (Function.update (Function.update pi k (pi k')) k' (pi k)) := by
  rw [swap_pi]
  refine ⟨h.perm.comp (Equiv.bijective _), fun i j => ?_⟩
  have h1 : lupRec (lupSwapRows a k k') k i j = lupRec a k (Equiv.swap k k' i) j := by
    unfold lupRec
    congr 1
    · refine Finset.sum_congr rfl fun t _ => ?_
      split_ifs with ht
      · rw [lowEntry_swap a hk i ht, upEntry_swap a hk j ht]
      · rfl
    · by_cases hi : i.val < k.val
      · rw [swap_lt hk hi, if_neg (by omega), if_neg (by omega)]
      · push Not at hi
        simp only [hi, swap_ge hk hi, true_and, lupSwapRows_apply]
  have h2 : lupAbs (lupSwapRows a k k') k i j = lupAbs a k (Equiv.swap k k' i) j := by
    unfold lupAbs
    congr 1
    · refine Finset.sum_congr rfl fun t _ => ?_
      split_ifs with ht
      · rw [lowEntry_swap a hk i ht, upEntry_swap a hk j ht]
      · rfl
    · by_cases hi : i.val < k.val
      · rw [swap_lt hk hi, if_neg (by omega), if_neg (by omega)]
      · push Not at hi
        simp only [hi, swap_ge hk hi, true_and, lupSwapRows_apply]
  have h3 : colDiag (lupSwapRows a k k') k j = colDiag a k j := by
    unfold colDiag
    split_ifs with hj
    · rw [lupSwapRows_apply, swap_lt hk hj]
    · rfl
  rw [h1, h2, h3]
  exact h.prod _ j

/-- An elimination step with rounding errors. -/
structure ElimApprox (P : BinPar) (a a' : Mat ℚ S S) (k : Fin S) : Prop where
  same : ∀ x y, ¬ (k < y ∧ k ≤ x) → a' x y = a x y
  mult : ∀ y, k < y → |a k y - a' k y * a k k| ≤ P.u * |a' k y * a k k| + P.eta * |a k k|
  elim : ∀ x y, k < y → k < x → |a x y - (a' k y * a x k + a' x y)| ≤ P.u * (|a' k y * a x k| + |a' x y|) + P.eta

theorem lupApprox_elim {A a a' : Mat ℚ S S} {k : Fin S} {pi : Fin S → Fin S} (h : LupApprox P A k a pi) (he : ElimApprox P a a' k) :
    LupApprox P A (k + 1) a' pi := by
  have hlow : ∀ i t : Fin S, t < k → lowEntry a' i t = lowEntry a i t := by
    intro i t ht
    simp only [lowEntry]
    rw [he.same t i (fun h => absurd h.2 (not_le.2 ht))]
  have hup : ∀ t j : Fin S, t ≤ k → upEntry a' t j = upEntry a t j := by
    intro t j ht
    simp only [upEntry]
    rw [he.same j t (fun h => absurd h.1 (not_lt.2 ht))]
  refine ⟨h.perm, fun i j => ?_⟩
  have hp := h.prod i j
  set X := ∑ t : Fin S, if t.val < k.val then lowEntry a i t * upEntry a t j else 0 with hX
  set B := ∑ t : Fin S, if t.val < k.val then |lowEntry a i t| * |upEntry a t j| else 0 with hB
  have hB0 : 0 ≤ B := Finset.sum_nonneg fun t _ => by split_ifs <;> positivity
  have e1 : (∑ t : Fin S, if t.val < k.val + 1 then lowEntry a' i t * upEntry a' t j else 0)
      = X + lowEntry a' i k * upEntry a k j := by
    have hsum : ∀ t : Fin S, (if t.val < k.val + 1 then lowEntry a' i t * upEntry a' t j else 0)
        = (if t.val < k.val then lowEntry a i t * upEntry a t j else 0)
          + (if t = k then lowEntry a' i k * upEntry a k j else 0) := by
      intro t
      rcases lt_trichotomy t k with ht | ht | ht
      · have h1 : t.val < k.val := ht
        rw [if_pos (by omega), if_pos h1, if_neg ht.ne, hlow i t ht, hup t j ht.le, add_zero]
      · subst ht
        simp [hup t j le_rfl]
      · have h1 : k.val < t.val := ht
        rw [if_neg (by omega), if_neg (by omega), if_neg ht.ne', add_zero]
    rw [Finset.sum_congr rfl fun t _ => hsum t, Finset.sum_add_distrib,
      Finset.sum_ite_eq' Finset.univ k, if_pos (Finset.mem_univ _)]
  have e2 : (∑ t : Fin S, if t.val < k.val + 1 then |lowEntry a' i t| * |upEntry a' t j| else 0)
      = B + |lowEntry a' i k| * |upEntry a k j| := by
    have hsum : ∀ t : Fin S, (if t.val < k.val + 1 then |lowEntry a' i t| * |upEntry a' t j| else 0)
        = (if t.val < k.val then |lowEntry a i t| * |upEntry a t j| else 0)
          + (if t = k then |lowEntry a' i k| * |upEntry a k j| else 0) := by
      intro t
      rcases lt_trichotomy t k with ht | ht | ht
      · have h1 : t.val < k.val := ht
        rw [if_pos (by omega), if_pos h1, if_neg ht.ne, hlow i t ht, hup t j ht.le, add_zero]
      · subst ht
        simp [hup t j le_rfl]
      · have h1 : k.val < t.val := ht
        rw [if_neg (by omega), if_neg (by omega), if_neg ht.ne', add_zero]
    rw [Finset.sum_congr rfl fun t _ => hsum t, Finset.sum_add_distrib,
      Finset.sum_ite_eq' Finset.univ k, if_pos (Finset.mem_univ _)]
  have hD0 := colDiag_nonneg a k j
  have hDD : colDiag a k j ≤ colDiag a' (k + 1) j := by
    unfold colDiag
    split_ifs with h1 h2 h2
    · rw [he.same j j (fun h => absurd h.2 (not_le.2 h1))]
    · omega
    · exact abs_nonneg _
    · exact le_rfl
  -- an unchanged entry
  have same : ∀ m s : ℚ, s = m → |A j (pi i) - (X + s)| ≤ lupErr P k (B + |s|) (colDiag a k j) →
      |A j (pi i) - (X + m)| ≤ lupErr P (k + 1) (B + |m|) (colDiag a' (k + 1) j) := by
    rintro m s rfl h
    exact h.trans ((lupErr_succ (by positivity) hD0).trans (lupErr_mono le_rfl hDD))
  unfold lupRec lupAbs at hp ⊢
  rw [e1, e2]
  rw [← hX, ← hB] at hp
  rw [add_assoc, add_assoc]
  rcases lt_trichotomy i k with hi | hi | hi
  · have h1 : i.val < k.val := hi
    have hl : lowEntry a' i k = 0 := by simp [lowEntry, hi.ne', not_lt.2 hi.le]
    rw [if_neg (by omega), if_neg (by omega)] at hp
    rw [hl, if_neg (by omega), if_neg (by omega)]
    simpa using same 0 0 rfl (by simpa using hp)
  · subst hi
    have hl : lowEntry a' i i = 1 := by simp [lowEntry]
    rw [hl, if_neg (by omega), if_neg (by omega)]
    simp only [abs_one, one_mul, add_zero]
    by_cases hj : i ≤ j
    · have hj' : i.val ≤ j.val := hj
      rw [if_pos ⟨le_rfl, hj'⟩, if_pos ⟨le_rfl, hj'⟩] at hp
      exact same (upEntry a i j) (a j i) (by simp [upEntry, hj]) hp
    · have hj' : ¬ i.val ≤ j.val := hj
      rw [if_neg (by omega), if_neg (by omega)] at hp
      have hu : upEntry a i j = 0 := by simp [upEntry, hj]
      rw [hu]
      simpa using same 0 0 rfl (by simpa using hp)
  · have h1 : k.val < i.val := hi
    have hl : lowEntry a' i k = a' k i := by simp [lowEntry, hi]
    rw [hl]
    rcases lt_trichotomy j k with hj | hj | hj
    · have h4 : j.val < k.val := hj
      have hu : upEntry a k j = 0 := by simp [upEntry, not_le.2 hj]
      rw [if_neg (by omega), if_neg (by omega)] at hp
      rw [hu, if_neg (by omega), if_neg (by omega)]
      simpa using same 0 0 rfl (by simpa using hp)
    · subst hj
      have hu : upEntry a j j = a j j := by simp [upEntry]
      rw [if_pos ⟨h1.le, le_rfl⟩, if_pos ⟨h1.le, le_rfl⟩] at hp
      rw [hu, if_neg (by omega), if_neg (by omega)]
      have hm := he.mult i hi
      have hcd : colDiag a' (j.val + 1) j = |a j j| := by
        unfold colDiag
        rw [if_pos (by omega), he.same j j (fun h => lt_irrefl _ h.1)]
      have := lupErr_step (m := a' j i * a j j) (r := 0) hB0 hD0 hDD hp (by
        rw [hcd]
        have := P.eta_pos
        simp only [add_zero, abs_zero]
        refine hm.trans ?_
        linarith)
      simpa [abs_mul] using this
    · have h4 : k.val < j.val := hj
      have hu : upEntry a k j = a j k := by simp [upEntry, hj.le]
      rw [if_pos ⟨h1.le, h4.le⟩, if_pos ⟨h1.le, h4.le⟩] at hp
      rw [hu, if_pos ⟨by omega, by omega⟩, if_pos ⟨by omega, by omega⟩]
      have hm := he.elim j i hi hj
      have hD2 := colDiag_nonneg a' (k + 1) j
      have := lupErr_step (m := a' k i * a j k) (r := a' j i) hB0 hD0 hDD hp (by
        refine hm.trans ?_
        have := mul_nonneg P.eta_pos.le hD2
        linarith)
      simpa [abs_mul] using this

/-! ### The decomposition in floating point arithmetic -/

/-- The values of the entries. -/
def vals (a : Mat (Flt P.fmt) S S) : Mat ℚ S S := fun c r => (a c r).val

theorem vals_swap (a : Mat (Flt P.fmt) S S) (k k' : Fin S) : vals (lupSwapRows a k k') = lupSwapRows (vals a) k k' := by
  funext c r
  simp only [vals, lupSwapRows_apply]

theorem abs_flt {a : Flt P.fmt} (h : a.isFinite) : (vm.abs a).isFinite ∧ (vm.abs a).val = |a.val| := by
  unfold vm.abs
  rw [Flt.lt_val h Flt.zero_finite, Flt.zero_val]
  by_cases h0 : a.val < 0
  · rw [if_pos (decide_eq_true h0), abs_of_neg h0]
    exact ⟨Flt.neg_finite.2 h, Flt.neg_val a⟩
  · rw [if_neg (by simpa using h0), abs_of_nonneg (not_lt.1 h0)]
    exact ⟨h, rfl⟩

theorem lupPivot_flt {a : Mat (Flt P.fmt) S S} (h : ∀ c r, (a c r).isFinite) (k : Fin S) :
    (lupPivot a k).1.isFinite ∧ (lupPivot a k).1.val = (lupPivot (vals a) k).1 ∧ (lupPivot a k).2 = (lupPivot (vals a) k).2 := by
  unfold lupPivot
  have gen : ∀ (l : List (Fin S)) (acc : Flt P.fmt × Fin S) (acc' : ℚ × Fin S), acc.1.isFinite → acc.1.val = acc'.1 → acc.2 = acc'.2 →
      let r := l.foldl (fun acc i => if Cmp.lt acc.1 (vm.abs (a k i)) then (vm.abs (a k i), i) else acc) acc
      let r' := l.foldl (fun acc i => if Cmp.lt acc.1 (vm.abs (vals a k i)) then (vm.abs (vals a k i), i) else acc) acc'
      r.1.isFinite ∧ r.1.val = r'.1 ∧ r.2 = r'.2 := by
    intro l
    induction l with
    | nil => intro acc acc' h1 h2 h3; exact ⟨h1, h2, h3⟩
    | cons i l ih =>
      intro acc acc' h1 h2 h3
      obtain ⟨h4, h5⟩ := abs_flt (h k i)
      have e : Cmp.lt acc.1 (vm.abs (a k i)) = Cmp.lt acc'.1 (vm.abs (vals a k i)) := by
        rw [Flt.lt_val h1 h4, h5, h2, abs_exact]; rfl
      simp only [List.foldl_cons, e]
      by_cases hc : Cmp.lt acc'.1 (vm.abs (vals a k i)) = true
      · rw [if_pos hc, if_pos hc]
        exact ih _ _ h4 (by rw [h5, abs_exact]; rfl) rfl
      · rw [if_neg hc, if_neg hc]
        exact ih _ _ h1 h2 h3
  exact gen _ _ _ Flt.zero_finite rfl rfl

theorem small_flt {p : Flt P.fmt} (h : p.isFinite) : LupSmall.small p = decide (p.val < lupLimit) := by
  obtain ⟨h1, e⟩ := Flt.eq_fin h
  rw [e]; rfl

theorem lupLimit_pos : 0 < lupLimit := by unfold lupLimit; norm_num

theorem rep_pow_mul {M : ℚ} (h : P.Rep M) : ∀ k : ℕ, P.Rep (2 ^ k * M)
  | 0 => by simpa using h
  | k + 1 => by
    have := (rep_pow_mul h k).double
    rwa [← mul_assoc, ← pow_succ'] at this

/-- The rounding of a number whose magnitude is bounded by a number of the format. -/
theorem round_abs_le {q b : ℚ} (hb : P.fmt.rep b) (h : |q| ≤ b) :
    (Flt.round q : Flt P.fmt).isFinite ∧ (Flt.round q : Flt P.fmt).val = P.fl q ∧ |P.fl q| ≤ b := by
  obtain ⟨h1, h2⟩ := abs_le.1 h
  obtain ⟨h3, h4, h5, h6⟩ := Flt.round_between (a := -b) (P.fmt.rep_neg hb) hb h1 h2
  exact ⟨h3, h4, abs_le.2 ⟨h5, h6⟩⟩

/-- The state of the decomposition of `A` after `k` steps, if the entries of `A` are at most `M` in magnitude. -/
structure FltLup (M : ℚ) (A : Mat (Flt P.fmt) S S) (k : ℕ) (st : Mat (Flt P.fmt) S S × (Fin S → Fin S)) : Prop where
  approx : LupApprox P (vals A) k (vals st.1) st.2
  fin : ∀ c r, (st.1 c r).isFinite
  growth : ∀ c r : Fin S, ¬ (c.val < k ∧ c < r) → |(st.1 c r).val| ≤ 2 ^ (min r.val k) * M
  mult : ∀ c r : Fin S, c.val < k → c < r → |(st.1 c r).val| ≤ 1
  diag : ∀ t : Fin S, t.val < k → lupLimit ≤ |(st.1 t t).val|

theorem fltLup_init {M : ℚ} {A : Mat (Flt P.fmt) S S} (hA : ∀ c r, (A c r).isFinite) (hM : ∀ c r, |(A c r).val| ≤ M) :
    FltLup M A 0 (A, fun i => i) where
  approx := lupApprox_init _
  fin := hA
  growth c r _ := by simpa using hM c r
  mult c r h := absurd h (Nat.not_lt_zero _)
  diag t h := absurd h (Nat.not_lt_zero _)

theorem fltLup_swap {M : ℚ} {A : Mat (Flt P.fmt) S S} {k k' : Fin S} {a : Mat (Flt P.fmt) S S} {pi : Fin S → Fin S}
    (h : FltLup M A k (a, pi)) (hk : k ≤ k') :
    FltLup M A k (lupSwapRows a k k', Function.update (Function.update pi k (pi k')) k' (pi k)) where
  approx := by
    simp only [vals_swap]
    exact lupApprox_swap h.approx hk
  fin c r := by
    simp only [lupSwapRows_apply]
    exact h.fin _ _
  growth c r hc := by
    simp only [lupSwapRows_apply]
    by_cases hr : r.val < k.val
    · rw [swap_lt hk hr]; exact h.growth c r hc
    · push Not at hr
      have h1 := swap_ge hk hr
      rw [min_eq_right hr]
      have := h.growth c (Equiv.swap k k' r) (fun h => hc ⟨h.1, lt_of_lt_of_le h.1 hr⟩)
      rwa [min_eq_right h1] at this
  mult c r h1 h2 := by
    simp only [lupSwapRows_apply]
    by_cases hr : r.val < k.val
    · rw [swap_lt hk hr]; exact h.mult c r h1 h2
    · push Not at hr
      exact h.mult c _ h1 (lt_of_lt_of_le h1 (swap_ge hk hr))
  diag t ht := by
    simp only [lupSwapRows_apply]
    rw [swap_lt hk ht]
    exact h.diag t ht

theorem lupEliminate_flt {M : ℚ} (hM : P.Rep M) (hS : 2 ^ (S - 1) * M < P.bound) {A : Mat (Flt P.fmt) S S} {k : Fin S} {a : Mat (Flt P.fmt) S S}
    {pi : Fin S → Fin S} (h : FltLup M A k (a, pi)) (hlim : lupLimit ≤ |(a k k).val|) (hpiv : ∀ i, k ≤ i → |(a k i).val| ≤ |(a k k).val|) :
    FltLup M A (k + 1) (lupEliminate a k, pi) := by
  have hM0 : 0 ≤ M := by
    have := h.growth k k (fun h => lt_irrefl _ h.2)
    simp only [min_self] at this
    have := (abs_nonneg _).trans this
    exact nonneg_of_mul_nonneg_right this (by positivity)
  have hkk : (a k k).val ≠ 0 := by
    intro h0
    rw [h0, abs_zero] at hlim
    exact absurd lupLimit_pos (not_lt.2 hlim)
  -- the multipliers
  have hl : ∀ y, k < y → (a k y / a k k).isFinite ∧ |(a k y / a k k).val| ≤ 1 ∧
      |(a k y).val - (a k y / a k k).val * (a k k).val| ≤ P.u * |(a k y / a k k).val * (a k k).val| + P.eta * |(a k k).val| := by
    intro y hy
    rw [fin_div_fin (h.fin k y) (h.fin k k) hkk]
    have hq : |(a k y).val / (a k k).val| ≤ 1 := by
      rw [abs_div]
      exact div_le_one_of_le₀ (hpiv y hy.le) (abs_nonneg _)
    obtain ⟨h1, h2, h3⟩ := round_abs_le P.fmt.rep_one hq
    refine ⟨h1, h2.symm ▸ h3, ?_⟩
    rw [h2]
    have h4 := P.fl_err_res ((a k y).val / (a k k).val)
    have h5 := mul_le_mul_of_nonneg_right h4 (abs_nonneg (a k k).val)
    rw [← abs_mul, sub_mul, div_mul_cancel₀ _ hkk, abs_sub_comm] at h5
    rw [abs_mul]
    linarith
  -- the products
  have hm : ∀ x y, k < y → k < x → (a k y / a k k * a x k).isFinite ∧ |(a k y / a k k * a x k).val| ≤ 2 ^ k.val * M ∧
      |(a k y / a k k * a x k).val - (a k y / a k k).val * (a x k).val| ≤ P.u * |(a k y / a k k).val * (a x k).val| + P.eta := by
    intro x y hy hx
    obtain ⟨h1, h2, _⟩ := hl y hy
    rw [Flt.mul_eq h1 (h.fin x k)]
    obtain ⟨h3, h4, h5⟩ := round_abs_le (rep_abs (Flt.rep_val (a x k))) (q := (a k y / a k k).val * (a x k).val) (by
      rw [abs_mul]; exact mul_le_of_le_one_left (abs_nonneg _) h2)
    refine ⟨h3, ?_, ?_⟩
    · rw [h4]
      have := h.growth x k (fun h => absurd h.1 (by have : k.val < x.val := hx; omega))
      rw [min_self] at this
      exact h5.trans this
    · rw [h4]; exact P.fl_err_u _
  -- the differences
  have hd : ∀ x y, k < y → k < x → (a x y - a k y / a k k * a x k).isFinite ∧
      |(a x y - a k y / a k k * a x k).val| ≤ 2 ^ (k.val + 1) * M ∧
      |(a x y).val - ((a k y / a k k).val * (a x k).val + (a x y - a k y / a k k * a x k).val)| ≤
        P.u * (|(a k y / a k k).val * (a x k).val| + |(a x y - a k y / a k k * a x k).val|) + P.eta := by
    intro x y hy hx
    obtain ⟨h1, h2, h3⟩ := hm x y hy hx
    rw [Flt.sub_eq (h.fin x y) h1]
    have hg := h.growth x y (fun h => absurd h.1 (by have : k.val < x.val := hx; omega))
    rw [min_eq_right (show k.val ≤ y.val from hy.le)] at hg
    have hb : |(a x y).val - (a k y / a k k * a x k).val| ≤ 2 ^ (k.val + 1) * M := by
      refine (abs_sub _ _).trans ((add_le_add hg h2).trans (le_of_eq ?_))
      rw [pow_succ]; ring
    obtain ⟨h4, h5, h6⟩ := round_abs_le (P := P) ⟨rep_pow_mul hM (k.val + 1), by
      rw [abs_of_nonneg (by positivity)]
      refine lt_of_le_of_lt (mul_le_mul_of_nonneg_right ?_ hM0) hS
      exact pow_le_pow_right₀ (by norm_num) (by have : k.val < y.val := hy; omega)⟩ hb
    refine ⟨h4, h5.symm ▸ h6, ?_⟩
    rw [h5]
    have h7 := BinPar.fl_sub_err_res (Flt.rep_val (a x y)).1 (Flt.rep_val (a k y / a k k * a x k)).1
    set m := (a k y / a k k * a x k).val
    set d := P.fl ((a x y).val - m)
    have e : (a x y).val - ((a k y / a k k).val * (a x k).val + d) = (m - (a k y / a k k).val * (a x k).val) - (d - ((a x y).val - m)) := by ring
    rw [e]
    refine (abs_sub _ _).trans ((add_le_add h3 h7).trans (le_of_eq ?_))
    ring
  have hap := lupEliminate_apply a k
  have hsame : ∀ x y, ¬ (k < y ∧ k ≤ x) → lupEliminate a k x y = a x y := by
    intro x y hxy
    rw [hap]
    split_ifs with h1 h2 h3
    · exact absurd ⟨h1, h2.ge⟩ hxy
    · exact absurd ⟨h1, h3.le⟩ hxy
    · rfl
    · rfl
  have hmul : ∀ y, k < y → lupEliminate a k k y = a k y / a k k := by
    intro y hy
    rw [hap, if_pos hy, if_pos rfl]
  have hdif : ∀ x y, k < y → k < x → lupEliminate a k x y = a x y - a k y / a k k * a x k := by
    intro x y hy hx
    rw [hap, if_pos hy, if_neg hx.ne', if_pos hx]
  have hcase : ∀ x y, ¬ (k < y ∧ k ≤ x) ∨ (k < y ∧ x = k) ∨ (k < y ∧ k < x) := by
    intro x y
    by_cases h1 : k < y ∧ k ≤ x
    · rcases h1.2.eq_or_lt with h2 | h2
      · exact Or.inr (Or.inl ⟨h1.1, h2.symm⟩)
      · exact Or.inr (Or.inr ⟨h1.1, h2⟩)
    · exact Or.inl h1
  refine ⟨lupApprox_elim h.approx ⟨?_, ?_, ?_⟩, ?_, ?_, ?_, ?_⟩
  · intro x y hxy
    simp only [vals, hsame x y hxy]
  · intro y hy
    simp only [vals, hmul y hy]
    exact (hl y hy).2.2
  · intro x y hy hx
    simp only [vals, hmul y hy, hdif x y hy hx]
    exact (hd x y hy hx).2.2
  · intro c r
    rcases hcase c r with h1 | ⟨h1, rfl⟩ | ⟨h1, h2⟩
    · simp only [hsame c r h1]; exact h.fin c r
    · simp only [hmul r h1]; exact (hl r h1).1
    · simp only [hdif c r h1 h2]; exact (hd c r h1 h2).1
  · intro c r hc
    rcases hcase c r with h1 | ⟨h1, rfl⟩ | ⟨h1, h2⟩
    · simp only [hsame c r h1]
      have hg := h.growth c r (fun h => hc ⟨by have := h.1; omega, h.2⟩)
      have e : min r.val (k.val + 1) = min r.val k.val := by
        by_contra hne
        apply h1
        have h3 : k.val < r.val := by omega
        refine ⟨h3, ?_⟩
        by_contra h4
        have h5 : c.val < k.val := not_le.1 h4
        exact hc ⟨by omega, lt_trans h5 h3⟩
      rw [e]; exact hg
    · exact absurd ⟨by omega, h1⟩ hc
    · simp only [hdif c r h1 h2]
      have e : min r.val (k.val + 1) = k.val + 1 := min_eq_right h1
      rw [e]; exact (hd c r h1 h2).2.1
  · intro c r h1 h2
    rcases hcase c r with h3 | ⟨h3, rfl⟩ | ⟨h3, h4⟩
    · simp only [hsame c r h3]
      by_cases h5 : c.val < k.val
      · exact h.mult c r h5 h2
      · exfalso
        apply h3
        have : c = k := Fin.ext (by omega)
        subst this
        exact ⟨h2, le_rfl⟩
    · simp only [hmul r h3]; exact (hl r h3).2.1
    · have : k.val < c.val := h4
      omega
  · intro t ht
    have h1 : ¬ (k < t ∧ k ≤ t) := fun h => by have : k.val < t.val := h.1; omega
    simp only [hsame t t h1]
    by_cases h2 : t.val < k.val
    · exact h.diag t h2
    · have : t = k := Fin.ext (by omega)
      rw [this]; exact hlim

/-- The pivot found in a column of finite numbers. -/
theorem lupPivot_finite {a : Mat (Flt P.fmt) S S} (h : ∀ c r, (a c r).isFinite) (k : Fin S) :
    (LupSmall.small (lupPivot a k).1 = true ∧ ∀ i, k ≤ i → |(a k i).val| < lupLimit) ∨
    (LupSmall.small (lupPivot a k).1 = false ∧ k ≤ (lupPivot a k).2 ∧ lupLimit ≤ |(a k (lupPivot a k).2).val| ∧
      ∀ i, k ≤ i → |(a k i).val| ≤ |(a k (lupPivot a k).2).val|) := by
  obtain ⟨h1, h2, h3⟩ := lupPivot_flt h k
  obtain ⟨h4, h5⟩ := lupPivot_spec (vals a) k
  rw [small_flt h1, h2]
  by_cases hc : (lupPivot (vals a) k).1 < lupLimit
  · left
    exact ⟨decide_eq_true hc, fun i hi => (h4 i hi).trans_lt hc⟩
  · right
    obtain ⟨h6, h7⟩ := h5 (lupLimit_pos.trans_le (not_lt.1 hc))
    have h8 : |(a k (lupPivot a k).2).val| = (lupPivot (vals a) k).1 := by rw [h3]; exact h7
    rw [h8]
    exact ⟨decide_eq_false hc, h3 ▸ h6, not_lt.1 hc, h4⟩

theorem fltLup_step {M : ℚ} (hM : P.Rep M) (hS : 2 ^ (S - 1) * M < P.bound) {A : Mat (Flt P.fmt) S S} {k : Fin S}
    {st : Mat (Flt P.fmt) S S × (Fin S → Fin S)} (h : FltLup M A k st) :
    match lupStep st k with
    | some st' => FltLup M A (k + 1) st'
    | none => ∀ i, k ≤ i → |(st.1 k i).val| < lupLimit := by
  unfold lupStep
  simp only
  rcases lupPivot_finite h.fin k with ⟨h1, h2⟩ | ⟨h1, h2, h3, h4⟩
  · rw [if_pos h1]; exact h2
  · rw [if_neg (by rw [h1]; simp)]
    apply lupEliminate_flt hM hS (fltLup_swap (a := st.1) (pi := st.2) h h2)
    · rw [lupSwapRows_apply, Equiv.swap_apply_left]; exact h3
    · intro i hi
      rw [lupSwapRows_apply, lupSwapRows_apply, Equiv.swap_apply_left]
      exact h4 _ (swap_ge h2 hi)

/-- Running the main loop either succeeds with the invariant or fails at some step where the invariant held. -/
theorem fltLup_run {M : ℚ} (hM : P.Rep M) (hS : 2 ^ (S - 1) * M < P.bound) (A : Mat (Flt P.fmt) S S) :
    ∀ (n : ℕ) (st : Mat (Flt P.fmt) S S × (Fin S → Fin S)) (_ : n ≤ S), FltLup M A (S - n) st →
    match ((List.finRange S).drop (S - n)).foldlM lupStep st with
    | some st' => FltLup M A S st'
    | none => ∃ (k : Fin S) (st' : Mat (Flt P.fmt) S S × (Fin S → Fin S)), FltLup M A k st' ∧ ∀ i, k ≤ i → |(st'.1 k i).val| < lupLimit
  | 0, st, hn, h => by
    have : (List.finRange S).drop (S - 0) = [] := by
      apply List.drop_eq_nil_of_le; simp
    rw [this]
    simpa using h
  | n + 1, st, hn, h => by
    have hlt : S - (n + 1) < S := by omega
    have hd : (List.finRange S).drop (S - (n + 1)) =
        ⟨S - (n + 1), hlt⟩ :: (List.finRange S).drop (S - n) := by
      rw [List.drop_eq_getElem_cons (by simpa using hlt), List.getElem_finRange]
      congr 2
      omega
    rw [hd, List.foldlM_cons]
    have hstep := fltLup_step (k := ⟨S - (n + 1), hlt⟩) hM hS h
    rcases hs : lupStep st ⟨S - (n + 1), hlt⟩ with _ | st'
    · rw [hs] at hstep
      exact ⟨_, st, h, hstep⟩
    · rw [hs] at hstep
      have : S - (n + 1) + 1 = S - n := by omega
      simp only [this] at hstep
      exact fltLup_run hM hS A n st' (by omega) hstep

theorem fltLup_cases {M : ℚ} (hM : P.Rep M) (hS : 2 ^ (S - 1) * M < P.bound) {A : Mat (Flt P.fmt) S S} (hA : ∀ c r, (A c r).isFinite)
    (hAM : ∀ c r, |(A c r).val| ≤ M) :
    (∃ st, lupFindDecomposition A = some st ∧ FltLup M A S st) ∨
    (lupFindDecomposition A = none ∧ ∃ (k : Fin S) (st : Mat (Flt P.fmt) S S × (Fin S → Fin S)), FltLup M A k st ∧
      ∀ i, k ≤ i → |(st.1 k i).val| < lupLimit) := by
  have := fltLup_run hM hS A S (A, fun i => i) le_rfl (by rw [Nat.sub_self]; exact fltLup_init hA hAM)
  rw [Nat.sub_self, List.drop_zero] at this
  unfold lupFindDecomposition
  rcases h : (List.finRange S).foldlM lupStep (A, fun i => i) with _ | st
  · rw [h] at this; exact Or.inr ⟨rfl, this⟩
  · rw [h] at this; exact Or.inl ⟨st, rfl, this⟩

/-! ### The substitutions -/

/-- A loop that assigns `y[i]` a value computed from the elements assigned before. -/
theorem foldl_update_spec {ι α : Type*} [DecidableEq ι] (r : ι → ι → Prop) (hr : ∀ i j, r i j → ¬ r j i) (g : (ι → α) → ι → α)
    (hg : ∀ y y' i, (∀ j, r j i → y j = y' j) → g y i = g y' i) : ∀ (l : List ι) (y : ι → α), l.Pairwise r →
    (∀ j, j ∉ l → l.foldl (fun y i => Function.update y i (g y i)) y j = y j) ∧
    ∀ i ∈ l, l.foldl (fun y i => Function.update y i (g y i)) y i = g (l.foldl (fun y i => Function.update y i (g y i)) y) i
  | [], y, _ => ⟨fun _ _ => rfl, fun i hi => by simp at hi⟩
  | i :: l, y, hl => by
    obtain ⟨h1, h2⟩ := foldl_update_spec r hr g hg l (Function.update y i (g y i)) hl.of_cons
    have hhead : ∀ j ∈ l, r i j := fun j hj => List.rel_of_pairwise_cons hl hj
    have hi : i ∉ l := fun h => hr i i (hhead _ h) (hhead _ h)
    simp only [List.foldl_cons]
    refine ⟨?_, ?_⟩
    · intro j hj
      rw [List.mem_cons, not_or] at hj
      rw [h1 j hj.2, Function.update_of_ne hj.1]
    · intro j hj
      rcases List.mem_cons.1 hj with rfl | hj
      · rw [h1 j hi, Function.update_self]
        refine hg _ _ _ fun m hm => ?_
        have hml : m ∉ l := fun h => hr _ _ (hhead _ h) hm
        have hmj : m ≠ j := by rintro rfl; exact hr _ _ hm hm
        rw [h1 m hml, Function.update_of_ne hmj]
      · exact h2 j hj

theorem foldl_filter_congr {α : Type*} [Add α] (p : Fin S → Prop) [DecidablePred p] {f f' : Fin S → α} (h : ∀ j, p j → f j = f' j) (x : α) :
    ((List.finRange S).filter p).foldl (fun sum j => sum + f j) x = ((List.finRange S).filter p).foldl (fun sum j => sum + f' j) x := by
  have gen : ∀ (l : List (Fin S)) (x : α), (∀ j ∈ l, p j) → l.foldl (fun sum j => sum + f j) x = l.foldl (fun sum j => sum + f' j) x := by
    intro l
    induction l with
    | nil => intro x _; rfl
    | cons a l ih =>
      intro x hl
      rw [List.foldl_cons, List.foldl_cons, h a (hl a (by simp))]
      exact ih _ fun j hj => hl j (by simp [hj])
  exact gen _ _ (by simp)

/-- The equations of the forward substitution, whatever the arithmetic is. -/
theorem lupForward_eq {T : Type*} [Zero T] [Add T] [Sub T] [Mul T] (lu : Mat T S S) (pi : Fin S → Fin S) (b : Vec T S) (i : Fin S) :
    lupForward lu pi b i = b (pi i) - ((List.finRange S).filter (· < i)).foldl (fun sum j => sum + lu j i * lupForward lu pi b j) 0 := by
  have := (foldl_update_spec (· < ·) (fun i j h => not_lt.2 (le_of_lt h)) (fun y i => b (pi i) -
    ((List.finRange S).filter (· < i)).foldl (fun sum j => sum + lu j i * y j) 0) (by
      intro y y' i h
      rw [foldl_filter_congr (· < i) (f := fun j => lu j i * y j) (f' := fun j => lu j i * y' j) fun j hj => by rw [h j hj]])
    (List.finRange S) (0 : Vec T S) (List.pairwise_lt_finRange S)).2 i (List.mem_finRange i)
  exact this

/-- The equations of the backward substitution, whatever the arithmetic is. -/
theorem lupBackward_eq {T : Type*} [Zero T] [Add T] [Sub T] [Mul T] [Div T] (lu : Mat T S S) (y : Vec T S) (i : Fin S) :
    lupBackward lu y i =
      (y i - ((List.finRange S).filter (i < ·)).foldl (fun sum j => sum + lu j i * lupBackward lu y j) 0) / lu i i := by
  have := (foldl_update_spec (fun a b : Fin S => b < a) (fun i j h => not_lt.2 (le_of_lt h)) (fun x i => (y i -
    ((List.finRange S).filter (i < ·)).foldl (fun sum j => sum + lu j i * x j) 0) / lu i i) (by
      intro x x' i h
      rw [foldl_filter_congr (i < ·) (f := fun j => lu j i * x j) (f' := fun j => lu j i * x' j) fun j hj => by rw [h j hj]])
    (List.finRange S).reverse (0 : Vec T S) (List.pairwise_reverse.2 (List.pairwise_lt_finRange S))).2 i (by simp)
  exact this

theorem dotErr_mono {n m : ℕ} (h : n ≤ m) {A A' : ℚ} (hA0 : 0 ≤ A) (hA : A ≤ A') : dotErr P n A ≤ dotErr P m A' := by
  have hu := P.u_pos
  have he := P.eta_pos
  have hw : (1 + P.u) ^ n ≤ (1 + P.u) ^ m := pow_le_pow_right₀ (by linarith) h
  have hw1 : 1 ≤ (1 + P.u) ^ m := one_le_pow₀ (by linarith)
  have hnm : (n : ℚ) ≤ m := by exact_mod_cast h
  unfold dotErr
  apply add_le_add
  · exact mul_le_mul (by linarith) hA hA0 (by linarith)
  · refine mul_le_mul_of_nonneg_right ?_ he.le
    exact mul_le_mul hnm hw (by positivity) (by positivity)

/-- The error of a sum of products. -/
theorem foldl_dot_err (f g : Fin S → Flt P.fmt) (l : List (Fin S))
    (h : (l.foldl (fun sum j => sum + f j * g j) 0).isFinite) :
    (∀ j ∈ l, (f j).isFinite ∧ (g j).isFinite) ∧
    |(l.foldl (fun sum j => sum + f j * g j) 0).val - (l.map fun j => (f j).val * (g j).val).sum| ≤
      dotErr P l.length (l.map fun j => |(f j).val * (g j).val|).sum := by
  induction l using List.reverseRecOn with
  | nil =>
    refine ⟨by simp, ?_⟩
    have : (List.foldl (fun sum j => sum + f j * g j) (0 : Flt P.fmt) []).val = 0 := rfl
    rw [this]
    simp [dotErr]
  | append_singleton l i ih =>
    rw [List.foldl_append, List.foldl_cons, List.foldl_nil] at h ⊢
    obtain ⟨h1, h2⟩ := Flt.add_finite h
    obtain ⟨h3, h4⟩ := ih h1
    refine ⟨?_, ?_⟩
    · intro j hj
      rcases List.mem_append.1 hj with hj | hj
      · exact h3 j hj
      · rw [List.mem_singleton] at hj
        subst hj
        exact Flt.mul_finite h2
    · have hm := P.fl_err_u ((f i).val * (g i).val)
      rw [← Flt.mul_val h2] at hm
      rw [List.map_append, List.map_append, List.sum_append, List.sum_append, List.length_append]
      simp only [List.map_cons, List.map_nil, List.sum_cons, List.sum_nil, add_zero, List.length_cons, List.length_nil, zero_add]
      have hr := BinPar.fl_add_err_u (Flt.rep_val (l.foldl (fun sum j => sum + f j * g j) 0)).1 (Flt.rep_val (f i * g i)).1
      rw [← Flt.add_val h] at hr
      rcases Nat.eq_zero_or_pos l.length with hl | hl
      · rw [List.length_eq_zero_iff] at hl
        subst hl
        have e : List.foldl (fun sum j => sum + f j * g j) (0 : Flt P.fmt) [] = 0 := rfl
        simp only [e, List.map_nil, List.sum_nil, zero_add, List.length_nil] at h ⊢
        have e2 : (0 + f i * g i).val = (f i * g i).val := by
          rw [Flt.add_val h, Flt.zero_val, zero_add, P.fl_rep (Flt.rep_val _).1]
        rw [e2]
        exact dotErr_one hm
      · refine dotErr_step l.length hl ?_ h4 hm le_rfl hr
        clear h4 ih h3 hr h1 h hl
        induction l with
        | nil => simp
        | cons a l ih =>
          simp only [List.map_cons, List.sum_cons]
          exact (abs_add_le _ _).trans (add_le_add le_rfl ih)

theorem filter_map_sum (p : Fin S → Prop) [DecidablePred p] (f : Fin S → ℚ) :
    (((List.finRange S).filter p).map f).sum = ∑ j, if p j then f j else 0 := by
  rw [← foldl_filter_sum p f, ← List.foldl_map (f := f) (g := fun s x => s + x), List.sum_eq_foldl]

/-- The error of a sum of products over the indices with a property. -/
theorem filter_dot_err (p : Fin S → Prop) [DecidablePred p] (f g : Fin S → Flt P.fmt)
    (h : (((List.finRange S).filter p).foldl (fun sum j => sum + f j * g j) 0).isFinite) :
    (∀ j, p j → (f j).isFinite ∧ (g j).isFinite) ∧
    |(((List.finRange S).filter p).foldl (fun sum j => sum + f j * g j) 0).val - ∑ j, (if p j then (f j).val * (g j).val else 0)| ≤
      dotErr P S (∑ j, if p j then |(f j).val * (g j).val| else 0) := by
  obtain ⟨h1, h2⟩ := foldl_dot_err f g _ h
  refine ⟨fun j hj => h1 j (by simpa using hj), ?_⟩
  rw [filter_map_sum p, filter_map_sum p] at h2
  refine h2.trans (dotErr_mono ?_ (Finset.sum_nonneg fun j _ => by split_ifs <;> positivity) le_rfl)
  exact (List.length_filter_le _ _).trans (by simp)

/-! ### Systems of two equations -/

theorem filter_zero_lt : (List.finRange 2).filter ((0 : Fin 2) < ·) = [1] := by decide
theorem filter_one_lt : (List.finRange 2).filter ((1 : Fin 2) < ·) = [] := by decide
theorem filter_zero_gt : (List.finRange 2).filter (· < (0 : Fin 2)) = [] := by decide
theorem filter_one_gt : (List.finRange 2).filter (· < (1 : Fin 2)) = [0] := by decide
/-- The solution of a 2 by 2 system whose first row has the larger element in the first column. -/
theorem lupSolve_two {T : Type*} [LupSmall T] [Cmp T] [Zero T] [Neg T] [Add T] [Sub T] [Mul T] [Div T] (A : Mat T 2 2) (b : Vec T 2) (l u y x : T)
    (h1 : Cmp.lt 0 (vm.abs (A 0 0)) = true) (h2 : Cmp.lt (vm.abs (A 0 0)) (vm.abs (A 0 1)) = false) (h3 : LupSmall.small (vm.abs (A 0 0)) = false)
    (hl : l = A 0 1 / A 0 0) (hu : u = A 1 1 - l * A 1 0) (h4 : Cmp.lt 0 (vm.abs u) = true) (h5 : LupSmall.small (vm.abs u) = false)
    (hy : y = b 0 - 0) (hx : x = (b 1 - (0 + l * y) - 0) / u) :
    lupSolve A b = (true, ![(y - (0 + A 1 0 * x)) / A 0 0, x]) := by
  have p0 : lupPivot A 0 = (vm.abs (A 0 0), 0) := by
    have : (List.finRange 2).filter ((0 : Fin 2) ≤ ·) = [0, 1] := by decide
    rw [lupPivot, this]
    simp [h1, h2]
  have sw : ∀ (k : Fin 2) (B : Mat T 2 2), lupSwapRows B k k = B := by
    intro k B
    funext c r
    rw [lupSwapRows_apply, Equiv.swap_self]; rfl
  have up : ∀ (k : Fin 2), Function.update (Function.update (fun i : Fin 2 => i) k k) k k = fun i => i := by decide
  have e0 : ∀ c r, lupEliminate A 0 c r = ![![A 0 0, l], ![A 1 0, u]] c r := by
    intro c r
    rw [lupEliminate_apply]
    fin_cases c <;> fin_cases r <;> simp [hl, hu]
  have p1 : lupPivot (lupEliminate A 0) 1 = (vm.abs u, 1) := by
    have : (List.finRange 2).filter ((1 : Fin 2) ≤ ·) = [1] := by decide
    rw [lupPivot, this]
    simp [e0, h4]
  have e1 : lupEliminate (lupEliminate A 0) 1 = lupEliminate A 0 := by
    funext c r
    rw [lupEliminate_apply, if_neg (by omega)]
  have hd : lupFindDecomposition A = some (lupEliminate A 0, fun i => i) := by
    rw [lupFindDecomposition]
    have : List.finRange 2 = [0, 1] := by decide
    rw [this, List.foldlM_cons, lupStep]
    simp only [p0, h3, sw, up]
    show ([1].foldlM lupStep (lupEliminate A 0, fun i => i)) = _
    rw [List.foldlM_cons, lupStep]
    simp only [p1, h5, sw, up, e1]
    rfl
  have f0 : lupForward (lupEliminate A 0) (fun i => i) b 0 = y := by
    rw [lupForward_eq, filter_zero_gt, hy]; rfl
  have f1 : lupForward (lupEliminate A 0) (fun i => i) b 1 = b 1 - (0 + l * y) := by
    rw [lupForward_eq, filter_one_gt]
    simp [f0, e0]
  have b1 : lupBackward (lupEliminate A 0) (lupForward (lupEliminate A 0) (fun i => i) b) 1 = x := by
    rw [lupBackward_eq, filter_one_lt, f1, hx]
    simp [e0]
  have b0 : lupBackward (lupEliminate A 0) (lupForward (lupEliminate A 0) (fun i => i) b) 0 = (y - (0 + A 1 0 * x)) / A 0 0 := by
    rw [lupBackward_eq, filter_zero_lt, f0]
    simp [e0, b1]
  rw [lupSolve, hd]
  show (true, lupBackward _ _) = _
  congr 1
  funext i
  fin_cases i
  · exact b0
  · exact b1

end vm
