import Verif.Model.ScalarFlt
import Verif.Props.Rounding
import Verif.Props.SqrtC

/-! Helper lemmas: the rounding functions in IEEE arithmetic. -/

set_option linter.unusedSectionVars false
set_option linter.unusedSimpArgs false

namespace vm

section exact
variable {K : Type*} [Field K] [LinearOrder K] [IsStrictOrderedRing K] [FloorRing K]

theorem truncG_exact (v : K) : truncG v = trunc v := by
  unfold truncG trunc
  show ((if -(2 ^ 63) - 1 < v ∧ v < 2 ^ 63 then some (if v < 0 then ⌈v⌉ else ⌊v⌋) else none).map (fun n : ℤ => (n : K))) = _
  split_ifs <;> rfl

theorem floorG_exact (v : K) : floorG v = floor v := by
  unfold floorG floor; rw [truncG_exact]; simp

theorem ceilG_exact (v : K) : ceilG v = ceil v := by
  unfold ceilG ceil; rw [truncG_exact]; simp

theorem fractG_exact (v : K) : fractG v = fract v := by
  unfold fractG fract; rw [floorG_exact, ceilG_exact]; simp

theorem roundG_exact (v : K) : roundG (1 / 2) v = round v := by
  unfold roundG round; rw [floorG_exact, ceilG_exact]; simp

theorem roundUpG_exact (v : K) : roundUpG v = roundUp v := by
  unfold roundUpG roundUp; rw [floorG_exact, ceilG_exact]; simp

theorem roundDownG_exact (v : K) : roundDownG v = roundDown v := by
  unfold roundDownG roundDown; rw [floorG_exact, ceilG_exact]; simp

theorem snapG_exact (v grid : K) : snapG (1 / 2) v grid = snap v grid := by
  unfold snapG snap; rw [roundG_exact]; simp

/-- The quotient by zero is an error in the exact model. -/
theorem modG_exact (x y : K) (hy : y ≠ 0) : modG x y = mod x y := by
  unfold modG mod; rw [truncG_exact, if_neg hy]

end exact

namespace BinPar
variable (P : BinPar)

theorem int_bound {n : ℤ} (h : |n| ≤ 2 ^ P.p) : |(n : ℚ)| < P.bound := by
  have h1 : |(n : ℚ)| ≤ 2 ^ P.p := by exact_mod_cast h
  refine lt_of_le_of_lt h1 ?_
  unfold bound
  rw [← zpow_natCast]
  have := P.hmax
  exact zpow_lt_zpow_right₀ (by norm_num) (by omega)

theorem rep_of_int {n : ℤ} (h : |n| ≤ 2 ^ P.p) : P.fmt.rep n := ⟨P.rep_int h, P.int_bound h⟩

variable {P}

theorem round_rep {q : ℚ} (h : P.fmt.rep q) : (Flt.round q : Flt P.fmt) = Flt.fin (F := P.fmt) q h := by
  have h1 := P.fl_rep h.1
  have h2 : |P.fl q| < P.bound := by rw [h1]; exact h.2
  rw [P.round_eq h2]
  congr 1

theorem rep_of_fl {q : ℚ} (h : |P.fl q| < P.bound) : P.fmt.rep (P.fl q) := ⟨P.rep_fl q, h⟩

theorem round_fl {q : ℚ} (h : P.fmt.rep (P.fl q)) : (Flt.round q : Flt P.fmt) = Flt.fin (F := P.fmt) (P.fl q) h :=
  P.round_eq h.2

/-- A number of the format is an integer or less than the precision allows. -/
theorem Rep.int_or {v : ℚ} (h : P.Rep v) : (∃ n : ℤ, v = n) ∨ |v| < 2 ^ (P.p - 1) := by
  have hp := P.hp
  by_cases hc : |v| < 2 ^ (P.p - 1)
  · exact Or.inr hc
  left
  rw [not_lt] at hc
  obtain ⟨m, hm⟩ := h.multiple (j := 0) (by
    rw [zero_add, show ((P.p : ℤ) - 1) = ((P.p - 1 : ℕ) : ℤ) by omega, zpow_natCast]; exact hc)
  exact ⟨m, by simpa using hm⟩

theorem Rep.floor {v : ℚ} (h : P.fmt.rep v) : P.fmt.rep (⌊v⌋ : ℤ) := by
  have hp := P.hp
  rcases Rep.int_or h.1 with ⟨n, hn⟩ | hl
  · have : ((⌊v⌋ : ℤ) : ℚ) = v := by rw [hn, Int.floor_intCast]
    rw [this]; exact h
  · apply P.rep_of_int
    have h1 := Int.floor_le v
    have h2 := Int.lt_floor_add_one v
    rw [abs_lt] at hl
    have h3 : (2 : ℚ) ^ P.p = 2 * 2 ^ (P.p - 1) := by rw [← pow_succ']; congr 1; omega
    have h4 : (1 : ℚ) ≤ 2 ^ (P.p - 1) := one_le_pow₀ (by norm_num)
    have : |((⌊v⌋ : ℤ) : ℚ)| ≤ 2 ^ P.p := by rw [abs_le]; constructor <;> linarith
    exact_mod_cast this

theorem Rep.ceil {v : ℚ} (h : P.fmt.rep v) : P.fmt.rep (⌈v⌉ : ℤ) := by
  have h1 := Rep.floor (P := P) (P.fmt.rep_neg h)
  rw [Int.floor_neg] at h1
  have h2 := P.fmt.rep_neg h1
  push_cast at h2
  rwa [neg_neg] at h2

theorem lt_fin {a b : ℚ} (ha : P.fmt.rep a) (hb : P.fmt.rep b) :
    Cmp.lt (Flt.fin a ha : Flt P.fmt) (Flt.fin b hb) = decide (a < b) := by
  show decide (Ext.ofRat a < Ext.ofRat b) = decide (a < b)
  simp [Ext.ofRat, WithBot.coe_lt_coe, WithTop.coe_lt_coe]

theorem fin_congr {a b : ℚ} (ha : P.fmt.rep a) (h : a = b) : (Flt.fin a ha : Flt P.fmt) = Flt.fin (F := P.fmt) b (h ▸ ha) := by
  subst h; rfl

theorem zero_fin : (0 : Flt P.fmt) = Flt.fin (F := P.fmt) 0 P.fmt.rep_zero := rfl

theorem one_fin : (1 : Flt P.fmt) = Flt.fin (F := P.fmt) 1 P.fmt.rep_one := rfl

theorem add_fin {a b : ℚ} (ha : P.fmt.rep a) (hb : P.fmt.rep b) :
    (Flt.fin a ha + Flt.fin b hb : Flt P.fmt) = Flt.round (a + b) := rfl

theorem sub_fin {a b : ℚ} (ha : P.fmt.rep a) (hb : P.fmt.rep b) :
    (Flt.fin a ha - Flt.fin b hb : Flt P.fmt) = Flt.round (a - b) := by
  rw [sub_eq_add_neg]; rfl

theorem truncG_fin {v : ℚ} (hv : P.fmt.rep v) (h : InInt64 v) :
    truncG (Flt.fin v hv : Flt P.fmt) =
      some (if v < 0 then Flt.fin (F := P.fmt) (⌈v⌉ : ℤ) (Rep.ceil hv) else Flt.fin (F := P.fmt) (⌊v⌋ : ℤ) (Rep.floor hv)) := by
  unfold truncG
  show Option.map _ (if -(2 ^ 63) - 1 < v ∧ v < 2 ^ 63 then some (if v < 0 then ⌈v⌉ else ⌊v⌋) else none) = _
  have h' : -(2 ^ 63) - 1 < v ∧ v < 2 ^ 63 := h
  rw [if_pos h']
  show some (Flt.round _) = _
  split_ifs
  · rw [round_rep]
  · rw [round_rep]

theorem floorG_fin {v : ℚ} (hv : P.fmt.rep v) (h : InInt64 v) :
    floorG (Flt.fin v hv : Flt P.fmt) = some (Flt.fin (F := P.fmt) (⌊v⌋ : ℤ) (Rep.floor hv)) := by
  unfold floorG
  rw [truncG_fin hv h, Option.map_some, zero_fin, P.le_fin]
  congr 1
  by_cases h0 : 0 ≤ v
  · simp [h0, not_lt.2 h0]
  have h0' := not_le.1 h0
  simp only [h0, h0', decide_false, if_true, Bool.false_eq_true, if_false]
  rw [P.eq_fin, one_fin, sub_fin]
  by_cases h1 : ((⌈v⌉ : ℤ) : ℚ) = v
  · rw [if_pos (by simpa using h1)]
    refine fin_congr _ ?_
    rw [← h1, Int.floor_intCast]
  · rw [if_neg (by simpa using h1)]
    have h2 : ((⌈v⌉ : ℤ) : ℚ) - 1 = (⌊v⌋ : ℤ) := by
      have h3 := Int.le_ceil v
      have h4 := Int.ceil_lt_add_one v
      have h5 : v < ⌈v⌉ := lt_of_le_of_ne h3 (Ne.symm h1)
      have : ⌊v⌋ = ⌈v⌉ - 1 := by
        rw [Int.floor_eq_iff]; push_cast; constructor <;> linarith
      rw [this]; push_cast; ring
    rw [h2, round_rep]

theorem ceilG_fin {v : ℚ} (hv : P.fmt.rep v) (h : InInt64 v) :
    ceilG (Flt.fin v hv : Flt P.fmt) = some (Flt.fin (F := P.fmt) (⌈v⌉ : ℤ) (Rep.ceil hv)) := by
  unfold ceilG
  rw [truncG_fin hv h, Option.map_some, zero_fin, lt_fin]
  congr 1
  by_cases h0 : v < 0
  · simp [h0]
  simp only [h0, decide_false, if_true, Bool.false_eq_true, if_false]
  rw [P.eq_fin, one_fin, add_fin]
  by_cases h1 : ((⌊v⌋ : ℤ) : ℚ) = v
  · rw [if_pos (by simpa using h1)]
    refine fin_congr _ ?_
    conv_rhs => rw [← h1, Int.ceil_intCast]
  · rw [if_neg (by simpa using h1)]
    have h2 : ((⌊v⌋ : ℤ) : ℚ) + 1 = (⌈v⌉ : ℤ) := by
      have h3 := Int.floor_le v
      have h4 := Int.lt_floor_add_one v
      have h5 : (⌊v⌋ : ℚ) < v := lt_of_le_of_ne h3 h1
      have : ⌈v⌉ = ⌊v⌋ + 1 := by
        rw [Int.ceil_eq_iff]; push_cast; constructor <;> linarith
      rw [this]; push_cast; ring
    rw [h2, round_rep]

theorem rep_sub_of_le {a b : ℚ} (ha : P.fmt.rep a) (hb : P.fmt.rep b) (h1 : |a - b| ≤ |a|) (h2 : |a - b| ≤ |b|) :
    P.fmt.rep (a - b) := by
  obtain ⟨m, e, h3, h4, h5⟩ := ha.1
  obtain ⟨n, f, h6, h7, h8⟩ := hb.1
  have h9 : |a - b| < P.bound := lt_of_le_of_lt h1 ha.2
  refine ⟨?_, h9⟩
  rcases le_total e f with h | h
  · refine P.rep_multiple h5 ?_ (m := m - n * 2 ^ (f - e).toNat) ?_
    · refine h1.trans ?_
      rw [h3, abs_mul, abs_of_pos (two_zpow_pos e), zpow_add2, mul_comm, zpow_natCast]
      have : |(m : ℚ)| ≤ 2 ^ P.p := by exact_mod_cast h4.le
      exact mul_le_mul_of_nonneg_left this (two_zpow_pos e).le
    · rw [h3, h6, zpow_eq_int_mul h]; push_cast; ring
  · refine P.rep_multiple h8 ?_ (m := m * 2 ^ (e - f).toNat - n) ?_
    · refine h2.trans ?_
      rw [h6, abs_mul, abs_of_pos (two_zpow_pos f), zpow_add2, mul_comm, zpow_natCast]
      have : |(n : ℚ)| ≤ 2 ^ P.p := by exact_mod_cast h7.le
      exact mul_le_mul_of_nonneg_left this (two_zpow_pos f).le
    · rw [h3, h6, zpow_eq_int_mul h]; push_cast; ring

/-- The fraction of a number of the format is a number of the format. -/
theorem Rep.fract {v : ℚ} (h : P.fmt.rep v) (h0 : 0 ≤ v) : P.fmt.rep (v - (⌊v⌋ : ℤ)) := by
  have h1 := Int.floor_le v
  have h2 := Int.lt_floor_add_one v
  rcases lt_or_ge v 1 with h3 | h3
  · have : ⌊v⌋ = 0 := by rw [Int.floor_eq_iff]; constructor <;> [simpa using h0; simpa using h3]
    rw [this]; simpa using h
  · have h4 : (1 : ℤ) ≤ ⌊v⌋ := by rw [Int.le_floor]; simpa using h3
    have h5 : (1 : ℚ) ≤ (⌊v⌋ : ℤ) := by exact_mod_cast h4
    refine rep_sub_of_le h (Rep.floor h) ?_ ?_ <;> rw [abs_of_nonneg (by linarith), abs_of_nonneg (by linarith)] <;> linarith

theorem Rep.fract' {v : ℚ} (h : P.fmt.rep v) (h0 : v ≤ 0) : P.fmt.rep (v - (⌈v⌉ : ℤ)) := by
  have := P.fmt.rep_neg (Rep.fract (P.fmt.rep_neg h) (by linarith))
  rw [Int.floor_neg] at this
  convert this using 1
  push_cast; ring

theorem tie_eq {n k : ℤ} (h1 : 2 ^ (P.p - 1) ≤ (n : ℚ)) (h2 : (n : ℚ) < 2 ^ P.p)
    (h3 : |(n : ℚ) + 1 / 2 - k| ≤ 1 / 2) (h4 : k % 2 = 0) : P.fl (n + 1 / 2) = k := by
  have hp := P.hp
  have hmin := P.hmin
  have hone : (1 : ℚ) ≤ 2 ^ (P.p - 1) := one_le_pow₀ (by norm_num)
  have he : P.ex (n + 1 / 2) = 0 := by
    apply le_antisymm
    · refine P.ex_le_of_lt (by linarith) ?_ (by omega)
      have : n + 1 ≤ 2 ^ P.p := by
        have : n < 2 ^ P.p := by exact_mod_cast h2
        omega
      have : (n : ℚ) + 1 ≤ 2 ^ P.p := by exact_mod_cast this
      rw [abs_of_nonneg (by linarith), zero_add, zpow_natCast]; linarith
    · refine P.le_ex_of_le ?_
      rw [abs_of_nonneg (by linarith), zero_add, show ((P.p : ℤ) - 1) = ((P.p - 1 : ℕ) : ℤ) by omega, zpow_natCast]
      linarith
  unfold BinPar.fl
  rw [he, zpow_zero, div_one, mul_one, rne_unique_even h3 h4]

theorem core_int {v : ℚ} (hv : P.Rep v) (h0 : 0 ≤ v) {n : ℤ} (hn : v = n)
    (ho : 2 ^ (P.p - 1) ≤ v → v < 2 ^ P.p → n % 2 = 0) : ⌊P.fl (v + 1 / 2)⌋ = n := by
  have hp := P.hp
  have hmin := P.hmin
  have h3 : (2 : ℚ) ^ P.p = 2 * 2 ^ (P.p - 1) := by rw [← pow_succ']; congr 1; omega
  subst hn
  have hn0 : (0 : ℤ) ≤ n := by exact_mod_cast h0
  have hlow : ((n : ℤ) : ℚ) ≤ P.fl (n + 1 / 2) := P.le_fl_of_rep hv (by linarith)
  rcases lt_or_ge (n : ℚ) (2 ^ (P.p - 1)) with h | h5
  · have h1 : n + 1 ≤ 2 ^ (P.p - 1) := by
      have : n < 2 ^ (P.p - 1) := by exact_mod_cast h
      omega
    have h1' : (n : ℚ) + 1 ≤ 2 ^ (P.p - 1) := by exact_mod_cast h1
    have hr : P.Rep ((n : ℚ) + 1 / 2) := by
      refine P.rep_multiple (e := -1) (by omega) ?_ (m := 2 * n + 1) (by push_cast; rw [zpow_neg_one]; ring)
      rw [abs_of_nonneg (by linarith), zpow_add2, zpow_natCast, zpow_neg_one, h3]
      linarith
    rw [P.fl_rep hr, Int.floor_eq_iff]; constructor <;> linarith
  rcases lt_or_ge (n : ℚ) (2 ^ P.p) with h6 | h
  swap
  · -- the next number is at least two away
    have h4 : ∃ m : ℤ, (n : ℚ) = m * 2 ^ (1 : ℤ) := hv.multiple (by
      rw [abs_of_nonneg h0, show (1 : ℤ) + P.p - 1 = P.p by ring, zpow_natCast]; exact h)
    rw [Int.floor_eq_iff]
    refine ⟨hlow, ?_⟩
    have := P.fl_nearest hv (n + 1 / 2)
    by_contra hc
    rw [not_lt] at hc
    -- equality: fl = n + 1, which is odd but a multiple of two
    rw [show (n : ℚ) - (n + 1 / 2) = -(1 / 2) by ring, abs_neg, abs_of_pos (by norm_num : (0:ℚ) < 1 / 2), abs_le] at this
    have he : P.fl (n + 1 / 2) = n + 1 := by linarith
    obtain ⟨m', hm'⟩ := (P.rep_fl (n + 1 / 2)).multiple (j := 1) (by
      rw [he, abs_of_nonneg (by linarith), show (1 : ℤ) + P.p - 1 = P.p by ring, zpow_natCast]; linarith)
    obtain ⟨m, hm⟩ := h4
    rw [he, hm, zpow_one] at hm'
    have : m * 2 + 1 = m' * 2 := by exact_mod_cast hm'
    omega
  · -- ties to even
    have h := ho h5 h6
    rw [tie_eq h5 h6 (by rw [abs_le]; constructor <;> linarith) h, Int.floor_intCast]

/-- An odd integer in the last binade of the integers is rounded up. -/
theorem core_odd {n : ℤ} (h1 : 2 ^ (P.p - 1) ≤ (n : ℚ)) (h2 : (n : ℚ) < 2 ^ P.p) (h3 : n % 2 = 1) :
    ⌊P.fl (n + 1 / 2)⌋ = n + 1 := by
  have : P.fl ((n : ℚ) + 1 / 2) = ((n + 1 : ℤ) : ℚ) := by
    refine tie_eq h1 h2 ?_ (by omega)
    push_cast; rw [abs_le]; constructor <;> linarith
  rw [this, Int.floor_intCast]

/-- Below one half. -/
theorem core_small {v : ℚ} (hv : P.Rep v) (h0 : 0 ≤ v) (h1 : v < 1 / 2) :
    ⌊P.fl (v + 1 / 2)⌋ = if v = 1 / 2 - 2 ^ (-(P.p : ℤ) - 1) then 1 else 0 := by
  have hp := P.hp
  have hmin := P.hmin
  have hx : (0 : ℚ) < 2 ^ (-(P.p : ℤ)) := two_zpow_pos _
  have hy : (2 : ℚ) ^ (-(P.p : ℤ)) = 2 ^ (-(P.p : ℤ) - 1) * 2 := by
    rw [← zpow_add_one₀ (by norm_num)]; congr 1; ring
  have hz : (2 : ℚ) ^ (-(P.p : ℤ)) * 2 ^ P.p = 1 := by rw [← zpow_natCast, ← zpow_add2]; simp
  have hz2 : (2 : ℚ) ^ (-(P.p : ℤ) - 1) * 2 ^ P.p = 1 / 2 := by rw [hy] at hz; linarith
  have he : P.ex (v + 1 / 2) = -P.p := by
    apply le_antisymm
    · refine P.ex_le_of_lt (by linarith) ?_ (by omega)
      rw [neg_add_cancel, zpow_zero, abs_of_nonneg (by linarith)]; linarith
    · refine P.le_ex_of_le ?_
      rw [show -(P.p : ℤ) + P.p - 1 = -1 by ring, zpow_neg_one, abs_of_nonneg (by linarith)]; linarith
  have hpe : (2 ^ P.p : ℤ) % 2 = 0 := by
    obtain ⟨k, hk⟩ : ∃ k, P.p = k + 1 := ⟨P.p - 1, by omega⟩
    rw [hk, pow_succ]; omega
  have hquot : (v + 1 / 2) / 2 ^ (-(P.p : ℤ)) = (v + 1 / 2) * 2 ^ P.p := by
    rw [zpow_neg, zpow_natCast, div_inv_eq_mul]
  split_ifs with h2
  · have : P.fl (v + 1 / 2) = 1 := by
      unfold BinPar.fl
      rw [he, hquot, rne_unique_even (n := 2 ^ P.p) ?_ hpe]
      · push_cast; linarith
      · have : (v + 1 / 2) * 2 ^ P.p = 2 ^ P.p - 1 / 2 := by rw [h2]; linarith
        rw [this]; push_cast
        rw [show (2 : ℚ) ^ P.p - 1 / 2 - 2 ^ P.p = -(1 / 2) by ring, abs_neg, abs_of_pos (by norm_num)]
    rw [this, Int.floor_one]
  · have hlt : v + 2 ^ (-(P.p : ℤ) - 1) < 1 / 2 := by
      rcases lt_or_ge v (1 / 4) with h3 | h3
      · have : (2 : ℚ) ^ (-(P.p : ℤ) - 1) ≤ 2 ^ (-4 : ℤ) := zpow_le_zpow_right₀ (by norm_num) (by omega)
        norm_num at this; linarith
      · obtain ⟨m, hm⟩ := hv.multiple (j := -(P.p : ℤ) - 1) (by
          rw [show -(P.p : ℤ) - 1 + P.p - 1 = -2 by ring, abs_of_nonneg h0]; norm_num; linarith)
        generalize (2 : ℚ) ^ (-(P.p : ℤ) - 1) = d at *
        have hd : 0 < d := by linarith
        have h4 : (m : ℚ) < 2 ^ P.p := by
          have : m * d < 2 ^ P.p * d := by rw [← hm]; linarith
          exact lt_of_mul_lt_mul_right this hd.le
        have h5 : m + 1 ≤ 2 ^ P.p := by
          have : m < 2 ^ P.p := by exact_mod_cast h4
          omega
        have h6 : m + 1 ≠ 2 ^ P.p := by
          intro h
          have : (m : ℚ) + 1 = 2 ^ P.p := by exact_mod_cast h
          apply h2; rw [hm, show (m : ℚ) = 2 ^ P.p - 1 by linarith]; linarith
        have h7 : (m : ℚ) + 1 + 1 ≤ 2 ^ P.p := by exact_mod_cast (by omega : m + 1 + 1 ≤ 2 ^ P.p)
        have : (m : ℚ) * d + 2 * d ≤ 2 ^ P.p * d := by nlinarith
        rw [hm]; linarith
    have hr : P.Rep (1 - 2 ^ (-(P.p : ℤ))) := by
      refine ⟨2 ^ P.p - 1, -P.p, by push_cast; linarith, ?_, by omega⟩
      have : (1 : ℤ) ≤ 2 ^ P.p := one_le_pow₀ (by norm_num)
      rw [abs_of_nonneg (by omega)]; omega
    have hf : P.fl (v + 1 / 2) < 1 := by
      by_contra hc
      rw [not_lt] at hc
      rcases P.mean_le_of_fl (y := v + 1 / 2) hr (by linarith) with h | h <;> linarith
    have := P.fl_nonneg (q := v + 1 / 2) (by linarith)
    rw [Int.floor_eq_iff]; constructor <;> push_cast <;> linarith

/-- Above one half, not an integer. -/
theorem core_frac {v : ℚ} (hv : P.Rep v) (h0 : 1 / 2 ≤ v) (hn : v ≠ ⌊v⌋) :
    ⌊P.fl (v + 1 / 2)⌋ = ⌊v + 1 / 2⌋ := by
  have hp := P.hp
  have hmin := P.hmin
  have f1 := Int.floor_le v
  have f2 := Int.lt_floor_add_one v
  have f3 : (⌊v⌋ : ℚ) < v := lt_of_le_of_ne f1 (Ne.symm hn)
  have hsm : v < 2 ^ (P.p - 1) := by
    rcases hv.int_or with ⟨n, h⟩ | h
    · exact absurd (by rw [h, Int.floor_intCast]) hn
    · rwa [abs_of_nonneg (by linarith)] at h
  generalize ⌊v⌋ = n at *
  have hn0 : 0 ≤ n := by
    have : (-1 : ℚ) < n := by linarith
    have : (-1 : ℤ) < n := by exact_mod_cast this
    omega
  have hnp : n + 1 ≤ 2 ^ (P.p - 1) := by
    have : (n : ℚ) < 2 ^ (P.p - 1) := by linarith
    have : n < 2 ^ (P.p - 1) := by exact_mod_cast this
    omega
  have hpp : (2 : ℤ) ^ P.p = 2 * 2 ^ (P.p - 1) := by rw [← pow_succ']; congr 1; omega
  have hone : (1 : ℤ) ≤ 2 ^ (P.p - 1) := one_le_pow₀ (by norm_num)
  rcases lt_or_ge v (n + 1 / 2) with h | h
  · -- the sum is exact
    have hn1 : 1 ≤ n := by
      have : (0 : ℚ) < n := by linarith
      have : (0 : ℤ) < n := by exact_mod_cast this
      omega
    have hr : P.Rep (v + 1 / 2) := by
      have hn1' : (1 : ℚ) ≤ n := by exact_mod_cast hn1
      have hv0 : v ≠ 0 := by linarith
      have hlog1 := log_le_self hv0
      have hlog2 := lt_succ_log v
      rw [abs_of_nonneg (by linarith : 0 ≤ v)] at hlog1 hlog2
      generalize Int.log 2 v = k at *
      have hk : k + 1 ≤ P.p - 1 := by
        have : (2 : ℚ) ^ k < 2 ^ ((P.p : ℤ) - 1) := by
          rw [show ((P.p : ℤ) - 1) = ((P.p - 1 : ℕ) : ℤ) by omega, zpow_natCast]; linarith
        have := (zpow_lt_zpow_iff_right₀ (by norm_num : (1 : ℚ) < 2)).1 this
        omega
      have hk0 : 0 ≤ k := by
        have : (2 : ℚ) ^ (0 : ℤ) < 2 ^ (k + 1) := by rw [zpow_zero]; linarith
        have := (zpow_lt_zpow_iff_right₀ (by norm_num : (1 : ℚ) < 2)).1 this
        omega
      obtain ⟨m, hm⟩ := hv.multiple (j := k + 1 - P.p) (by
        rw [show k + 1 - P.p + P.p - 1 = k by ring, abs_of_nonneg (by linarith)]; exact hlog1)
      obtain ⟨l, hl⟩ : ∃ l : ℤ, (1 / 2 : ℚ) = l * 2 ^ (k + 1 - P.p) := by
        have := zpow_eq_int_mul (a := k + 1 - P.p) (b := -1) (by omega)
        rw [zpow_neg_one] at this
        exact ⟨_, by rw [one_div]; exact this⟩
      have hsum : v + 1 / 2 = ((m + l : ℤ) : ℚ) * 2 ^ (k + 1 - P.p) := by push_cast; linarith
      refine P.rep_multiple (e := k + 1 - P.p) (by omega) ?_ hsum
      rw [show k + 1 - P.p + P.p = k + 1 by ring, abs_of_nonneg (by linarith)]
      have h5 : n + 1 ≤ 2 ^ (k + 1).toNat := by
        have h6 : (n : ℚ) < 2 ^ (k + 1) := by linarith
        rw [show k + 1 = (((k + 1).toNat : ℕ) : ℤ) by omega, zpow_natCast] at h6
        have : n < 2 ^ (k + 1).toNat := by exact_mod_cast h6
        omega
      have h7 : (n : ℚ) + 1 ≤ 2 ^ (k + 1) := by
        rw [show k + 1 = (((k + 1).toNat : ℕ) : ℤ) by omega, zpow_natCast]; exact_mod_cast h5
      linarith
    rw [P.fl_rep hr]
  · have hr : P.Rep ((n + 1 : ℤ) : ℚ) := P.rep_int (by rw [abs_of_nonneg (by omega)]; omega)
    have h1 := P.le_fl_of_rep hr (x := v + 1 / 2) (by push_cast; linarith)
    have h2 := P.fl_nearest hr (v + 1 / 2)
    push_cast at h1 h2
    rw [abs_of_nonpos (by linarith : (n : ℚ) + 1 - (v + 1 / 2) ≤ 0)] at h2
    have h3 := (abs_le.1 h2).2
    have e1 : ⌊v + 1 / 2⌋ = n + 1 := by rw [Int.floor_eq_iff]; push_cast; constructor <;> linarith
    rw [e1, Int.floor_eq_iff]; push_cast; constructor <;> linarith

end BinPar
end vm
