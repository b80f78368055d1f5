import Verif.Lemmas.RoundingFlt

/-! # C84, C85: the rounding functions in IEEE arithmetic

`P` is an arbitrary binary format with rounding to nearest, ties to even; `binary32` and `binary64` are instances. -/

set_option linter.unusedSectionVars false
set_option linter.unusedSimpArgs false

namespace vm
open BinPar

/-! ### C84: truncation, floor, ceiling and fraction are exact -/

theorem C84_exact (P : BinPar) (v : ℚ) (hv : P.fmt.rep v) (h1 : -(2 ^ 63) - 1 < v) (h2 : v < 2 ^ 63) :
    (∃ h, floorG (Flt.fin v hv : Flt P.fmt) = some (Flt.fin (F := P.fmt) (⌊v⌋ : ℤ) h)) ∧
    (∃ h, ceilG (Flt.fin v hv : Flt P.fmt) = some (Flt.fin (F := P.fmt) (⌈v⌉ : ℤ) h)) ∧
    (∃ h, truncG (Flt.fin v hv : Flt P.fmt) = some (Flt.fin (F := P.fmt) ((if 0 ≤ v then ⌊v⌋ else ⌈v⌉ : ℤ) : ℚ) h)) ∧
    (∃ h, roundDownG (Flt.fin v hv : Flt P.fmt) = some (Flt.fin (F := P.fmt) ((if 0 ≤ v then ⌊v⌋ else ⌈v⌉ : ℤ) : ℚ) h)) ∧
    (∃ h, roundUpG (Flt.fin v hv : Flt P.fmt) = some (Flt.fin (F := P.fmt) ((if 0 ≤ v then ⌈v⌉ else ⌊v⌋ : ℤ) : ℚ) h)) ∧
    (∃ h, fractG (Flt.fin v hv : Flt P.fmt) = some (Flt.fin (F := P.fmt) (v - (if 0 ≤ v then ⌊v⌋ else ⌈v⌉ : ℤ)) h)) := by
  have h : InInt64 v := ⟨h1, h2⟩
  refine ⟨⟨_, floorG_fin hv h⟩, ⟨_, ceilG_fin hv h⟩, ?_, ?_, ?_, ?_⟩
  · rw [truncG_fin hv h]
    by_cases h0 : 0 ≤ v
    · simp only [h0, not_lt.2 h0, if_true, if_false]; exact ⟨Rep.floor hv, trivial⟩
    · simp only [h0, not_le.1 h0, if_true, if_false]; exact ⟨Rep.ceil hv, trivial⟩
  · unfold roundDownG
    rw [floorG_fin hv h, ceilG_fin hv h, zero_fin, lt_fin]
    rcases lt_trichotomy v 0 with h0 | h0 | h0
    · simp only [not_le.2 h0, not_lt.2 h0.le, decide_false, Bool.false_eq_true, if_false]; exact ⟨Rep.ceil hv, trivial⟩
    · subst h0; simpa using hv
    · simp only [h0, h0.le, decide_true, if_true]; exact ⟨Rep.floor hv, trivial⟩
  · unfold roundUpG
    rw [floorG_fin hv h, ceilG_fin hv h, zero_fin, lt_fin]
    by_cases h0 : 0 ≤ v
    · simp only [h0, not_lt.2 h0, decide_false, Bool.false_eq_true, if_true, if_false]; exact ⟨Rep.ceil hv, trivial⟩
    · simp only [h0, not_le.1 h0, decide_true, if_true, if_false]; exact ⟨Rep.floor hv, trivial⟩
  · unfold fractG
    rw [floorG_fin hv h, ceilG_fin hv h, zero_fin, lt_fin]
    rcases lt_trichotomy v 0 with h0 | h0 | h0
    · simp only [not_le.2 h0, not_lt.2 h0.le, decide_false, Bool.false_eq_true, if_false, Option.map_some]
      rw [sub_fin, round_rep (Rep.fract' hv h0.le)]
      exact ⟨Rep.fract' hv h0.le, rfl⟩
    · subst h0
      simp only [lt_irrefl, decide_false, Bool.false_eq_true, if_false, Option.map_some, le_refl, if_true]
      rw [sub_fin, round_rep (Rep.fract' hv le_rfl)]
      exact ⟨by simpa using hv, congrArg some (fin_congr _ (by simp))⟩
    · simp only [h0, h0.le, decide_true, if_true, Option.map_some]
      rw [sub_fin, round_rep (Rep.fract hv h0.le)]
      exact ⟨Rep.fract hv h0.le, rfl⟩

/-- Elsewhere the conversion to `int64_t` is undefined: `none`. -/
theorem C84_undefined (F : Fmt) (x : Flt F)
    (hx : ∀ v h, x = Flt.fin v h → v ≤ -(2 ^ 63) - 1 ∨ 2 ^ 63 ≤ v) :
    truncG x = none ∧ floorG x = none ∧ ceilG x = none ∧ fractG x = none ∧ roundUpG x = none ∧ roundDownG x = none := by
  have h : truncG x = none := by
    rcases x with _ | _ | _ | ⟨v, hv⟩
    · rfl
    · rfl
    · rfl
    · unfold truncG
      show Option.map _ (if -(2 ^ 63) - 1 < v ∧ v < 2 ^ 63 then some (if v < 0 then ⌈v⌉ else ⌊v⌋) else none) = _
      rw [if_neg]; rfl
      rintro ⟨h1, h2⟩
      rcases hx v hv rfl with h | h <;> linarith
  have hf : floorG x = none := by unfold floorG; rw [h]; rfl
  have hc : ceilG x = none := by unfold ceilG; rw [h]; rfl
  refine ⟨h, hf, hc, ?_, ?_, ?_⟩ <;> simp [fractG, roundUpG, roundDownG, hf, hc]

/-- Minus seven halves is a `float` in the range. -/
example : binary32.fmt.rep (-7 / 2) ∧ -(2 ^ 63) - 1 < (-7 / 2 : ℚ) ∧ (-7 / 2 : ℚ) < 2 ^ 63 := by
  refine ⟨⟨⟨-7, -1, by norm_num, by norm_num [binary32], by norm_num [binary32]⟩, ?_⟩, by norm_num, by norm_num⟩
  unfold BinPar.bound binary32
  have h : (2 : ℚ) ^ (2 : ℤ) ≤ 2 ^ (((24 : ℕ) : ℤ) + 104) := zpow_le_zpow_right₀ (by norm_num) (by norm_num)
  rw [abs_of_neg (by norm_num)]
  refine lt_of_lt_of_le ?_ h
  norm_num

/-- Infinity is outside the range. -/
example (F : Fmt) : ∀ v h, (Flt.pinf : Flt F) = Flt.fin v h → v ≤ -(2 ^ 63) - 1 ∨ 2 ^ 63 ≤ v := by
  intro v h he; cases he

/-! ### C85: rounding to the nearest integer is wrong for some floats -/

theorem roundG_nonneg {P : BinPar} (hp : P.p ≤ 62) {v : ℚ} (hv : P.fmt.rep v) (h0 : 0 ≤ v) (h2 : v < 2 ^ 63) :
    ∃ (h : P.fmt.rep ((⌊P.fl (v + 1 / 2)⌋ : ℤ) : ℚ)),
      floorG ((Flt.fin v hv : Flt P.fmt) + P.half) = some (Flt.fin (F := P.fmt) ((⌊P.fl (v + 1 / 2)⌋ : ℤ) : ℚ) h) := by
  have hr : |P.fl (v + 1 / 2)| < P.bound := by
    rw [abs_of_nonneg (P.fl_nonneg (by linarith))]
    exact lt_of_le_of_lt (P.fl_mono (by linarith)) (P.fl_add_one_lt hv)
  have hmax : v ≤ 2 ^ 63 - 2 := by
    rcases lt_or_ge v (2 ^ 62) with h | h
    · linarith
    · obtain ⟨m, hm⟩ := hv.1.multiple (j := 63 - P.p) (by
        rw [show 63 - (P.p : ℤ) + P.p - 1 = (62 : ℕ) by norm_num, zpow_natCast, abs_of_nonneg h0]; exact h)
      rw [show (63 : ℤ) - P.p = ((63 - P.p : ℕ) : ℤ) by omega, zpow_natCast,
        show 63 - P.p = (62 - P.p) + 1 by omega, pow_succ] at hm
      have h3 : m * (2 ^ (62 - P.p) * 2) < (2 ^ 63 : ℤ) := by
        have : (m : ℚ) * (2 ^ (62 - P.p) * 2) < 2 ^ 63 := by rw [← hm]; exact h2
        exact_mod_cast this
      have h4 : m * (2 ^ (62 - P.p) * 2) ≤ (2 ^ 63 - 2 : ℤ) := by
        have e : m * (2 ^ (62 - P.p) * 2) = 2 * (m * 2 ^ (62 - P.p)) := by ring
        rw [e] at h3 ⊢
        generalize m * 2 ^ (62 - P.p) = k at *
        norm_num at h3 ⊢
        omega
      rw [hm]; exact_mod_cast h4
  have hle : P.fl (v + 1 / 2) ≤ v + 1 := by
    have := (abs_le.1 (P.fl_nearest hv.1 (v + 1 / 2))).2
    rw [show v - (v + 1 / 2) = -(1 / 2) by ring, abs_neg, abs_of_pos (by norm_num : (0 : ℚ) < 1 / 2)] at this
    linarith
  have hI : InInt64 (P.fl (v + 1 / 2)) :=
    ⟨by have := P.fl_nonneg (q := v + 1 / 2) (by linarith); norm_num at this ⊢; linarith,
      by norm_num at hmax hle ⊢; linarith⟩
  refine ⟨Rep.floor (P := P) ⟨P.rep_fl _, hr⟩, ?_⟩
  show floorG (Flt.round (v + 1 / 2) : Flt P.fmt) = _
  rw [round_fl (rep_of_fl hr), floorG_fin _ hI]

theorem roundG_fin {P : BinPar} (hp : P.p ≤ 62) {v : ℚ} (hv : P.fmt.rep v) (h2 : |v| < 2 ^ 63) :
    ∃ (r : ℤ) (h : P.fmt.rep (r : ℚ)), roundG P.half (Flt.fin v hv) = some (Flt.fin (F := P.fmt) (r : ℚ) h) ∧
      r = if 0 < v then ⌊P.fl (|v| + 1 / 2)⌋ else -⌊P.fl (|v| + 1 / 2)⌋ := by
  have hvn : P.fmt.rep |v| := by
    rcases abs_cases v with h | h <;> rw [h.1]
    · exact hv
    · exact P.fmt.rep_neg hv
  obtain ⟨h, hf⟩ := roundG_nonneg hp hvn (abs_nonneg v) h2
  unfold roundG
  rw [zero_fin, lt_fin]
  by_cases h0 : 0 < v
  · refine ⟨⌊P.fl (|v| + 1 / 2)⌋, h, ?_, by rw [if_pos h0]⟩
    rw [if_pos (by simpa using h0), ← hf]
    congr 2
    exact fin_congr _ (abs_of_pos h0).symm
  · refine ⟨-⌊P.fl (|v| + 1 / 2)⌋, by push_cast; exact P.fmt.rep_neg h, ?_, by rw [if_neg h0]⟩
    rw [if_neg (by simpa using h0)]
    -- the negative case mirrors the positive one
    have hav : |v| = -v := abs_of_nonpos (not_lt.1 h0)
    have e1 : (Flt.fin v hv - P.half : Flt P.fmt) = Flt.round (-(|v| + 1 / 2)) := by
      show (Flt.fin v hv - Flt.fin (1 / 2) P.rep_half : Flt P.fmt) = _
      rw [sub_fin]; congr 1; rw [hav]; ring
    have hb : |P.fl (|v| + 1 / 2)| < P.bound := by
      rw [abs_of_nonneg (P.fl_nonneg (by positivity))]
      exact lt_of_le_of_lt (P.fl_mono (by linarith)) (P.fl_add_one_lt hvn)
    have hb' : |P.fl (-(|v| + 1 / 2))| < P.bound := by rw [P.fl_neg, abs_neg]; exact hb
    have hI : InInt64 (P.fl (|v| + 1 / 2)) := by
      by_contra hc
      have e2 : (Flt.fin |v| hvn + P.half : Flt P.fmt) = Flt.fin (F := P.fmt) _ (rep_of_fl hb) :=
        round_fl (rep_of_fl hb)
      rw [e2] at hf
      have := (C84_undefined P.fmt (Flt.fin (F := P.fmt) _ (rep_of_fl hb)) (by
        intro w hw he
        cases he
        by_contra hcc
        rw [not_or, not_le, not_le] at hcc
        exact hc hcc)).2.1
      rw [this] at hf; cases hf
    have hI' : InInt64 (P.fl (-(|v| + 1 / 2))) := by
      rw [P.fl_neg]
      have := P.fl_nonneg (q := |v| + 1 / 2) (by positivity)
      obtain ⟨h5, h6⟩ := hI
      exact ⟨by linarith, by norm_num; linarith⟩
    rw [e1, round_fl (rep_of_fl hb'), ceilG_fin _ hI']
    congr 1
    refine fin_congr _ ?_
    rw [P.fl_neg, Int.ceil_neg]

/-- `round` gives the nearest integer, halves away from zero, except for the number below one half and for odd integers in the
last binade in which odd integers exist. -/
theorem C85_round_partial (P : BinPar) (hp : P.p ≤ 62) (v : ℚ) (hv : P.fmt.rep v) (h2 : |v| < 2 ^ 63) :
    ∃ (r : ℤ) (h : P.fmt.rep (r : ℚ)), roundG P.half (Flt.fin v hv) = some (Flt.fin (F := P.fmt) (r : ℚ) h) ∧
      (|v| ≠ 1 / 2 - 2 ^ (-(P.p : ℤ) - 1) → (∀ n : ℤ, v = n → n % 2 = 1 → |v| < 2 ^ (P.p - 1) ∨ 2 ^ P.p ≤ |v|) →
        |v - r| ≤ 1 / 2 ∧ (|v - r| = 1 / 2 → |v| < |(r : ℚ)|)) ∧
      (|v| = 1 / 2 - 2 ^ (-(P.p : ℤ) - 1) → |(r : ℚ)| = 1 ∧ 0 < r * v) ∧
      (∀ n : ℤ, v = n → n % 2 = 1 → 2 ^ (P.p - 1) ≤ |v| → |v| < 2 ^ P.p → |(r : ℚ)| = |v| + 1 ∧ 0 < r * v) := by
  obtain ⟨r, h, hr, hre⟩ := roundG_fin hp hv h2
  refine ⟨r, h, hr, ?_⟩
  have hp3 := P.hp
  have hvn : P.Rep |v| := by
    rcases abs_cases v with h | h <;> rw [h.1]
    · exact hv.1
    · exact hv.1.neg
  have hv0 := abs_nonneg v
  -- reduce to non-negative numbers
  have key : ∀ m : ℤ, ⌊P.fl (|v| + 1 / 2)⌋ = m → 0 ≤ m → |v - r| = |(|v| - m)| ∧ |(r : ℚ)| = m ∧ (0 < m → v ≠ 0 → 0 < r * v) := by
    intro m hm hm0
    have hm0' : (0 : ℚ) ≤ m := by exact_mod_cast hm0
    rw [hm] at hre
    by_cases hc : 0 < v
    · rw [if_pos hc] at hre
      subst hre
      refine ⟨by rw [abs_of_pos hc], abs_of_nonneg hm0', fun h _ => ?_⟩
      have : (0 : ℚ) < r := by exact_mod_cast h
      positivity
    · rw [if_neg hc] at hre
      subst hre
      rw [abs_of_nonpos (not_lt.1 hc)]
      refine ⟨by push_cast; rw [← abs_neg]; congr 1; ring, by push_cast; rw [abs_neg]; exact abs_of_nonneg hm0', fun h h' => ?_⟩
      have h3 : (0 : ℚ) < m := by exact_mod_cast h
      have h4 : v < 0 := lt_of_le_of_ne (not_lt.1 hc) h'
      push_cast; nlinarith
  refine ⟨fun ha hb => ?_, fun ha => ?_, fun n hn ho h3 h4 => ?_⟩
  · have hfl : ⌊P.fl (|v| + 1 / 2)⌋ = ⌊|v| + 1 / 2⌋ := by
      by_cases hi : |v| = ⌊|v|⌋
      · have e : ⌊|v| + 1 / 2⌋ = ⌊|v|⌋ := by
          rw [Int.floor_eq_iff]; constructor <;> linarith
        rw [e]
        refine core_int hvn hv0 hi (fun h3 h4 => ?_)
        by_contra hodd
        have hodd' : ⌊|v|⌋ % 2 = 1 := by omega
        rcases abs_cases v with h5 | h5
        · rcases hb ⌊|v|⌋ (by rw [← hi, h5.1]) hodd' with h6 | h6 <;> linarith
        · rcases hb (-⌊|v|⌋) (by push_cast; rw [← hi, h5.1]; ring) (by omega) with h6 | h6 <;> linarith
      · rcases lt_or_ge |v| (1 / 2) with h5 | h5
        · rw [core_small hvn hv0 h5, if_neg ha]
          symm; rw [Int.floor_eq_iff]; push_cast; constructor <;> linarith
        · exact core_frac hvn h5 hi
    have f1 := Int.floor_le (|v| + 1 / 2)
    have f2 := Int.lt_floor_add_one (|v| + 1 / 2)
    have f3 : 0 ≤ ⌊|v| + 1 / 2⌋ := Int.floor_nonneg.2 (by linarith)
    obtain ⟨k1, k2, -⟩ := key _ hfl f3
    rw [k1, k2]
    refine ⟨by rw [abs_le]; constructor <;> linarith, fun h => ?_⟩
    rcases abs_cases (|v| - ⌊|v| + 1 / 2⌋) with h5 | h5 <;> rw [h5.1] at h <;> linarith
  · have hlt : (2 : ℚ) ^ (-(P.p : ℤ) - 1) ≤ 2 ^ (-4 : ℤ) := zpow_le_zpow_right₀ (by norm_num) (by omega)
    have hpos := two_zpow_pos (-(P.p : ℤ) - 1)
    norm_num at hlt
    have : ⌊P.fl (|v| + 1 / 2)⌋ = 1 := by
      rw [core_small hvn hv0 (by linarith), if_pos ha]
    obtain ⟨-, k2, k3⟩ := key _ this (by norm_num)
    refine ⟨by rw [k2]; norm_num, k3 (by norm_num) ?_⟩
    rintro rfl
    rw [abs_zero] at ha; linarith
  · have h5 : |v| = (|n| : ℤ) := by rw [hn]; push_cast; rfl
    have h6 : ⌊P.fl (|v| + 1 / 2)⌋ = |n| + 1 := by
      rw [h5] at h3 h4 ⊢
      refine core_odd h3 h4 ?_
      rcases abs_cases n with h | h <;> rw [h.1] <;> omega
    obtain ⟨-, k2, k3⟩ := key _ h6 (by positivity)
    refine ⟨by rw [k2, h5]; push_cast; ring, k3 (by positivity) ?_⟩
    rintro rfl
    have : n = 0 := by exact_mod_cast hn.symm
    omega

/-- 3/2 is a `double` that meets the hypotheses and is no exception. -/
example : binary64.p ≤ 62 ∧ binary64.fmt.rep (3 / 2) ∧ |(3 / 2 : ℚ)| < 2 ^ 63 ∧
    |(3 / 2 : ℚ)| ≠ 1 / 2 - 2 ^ (-(binary64.p : ℤ) - 1) ∧ ∀ n : ℤ, (3 / 2 : ℚ) = n → False := by
  refine ⟨by norm_num [binary64], ⟨⟨3, -1, by norm_num, by norm_num [binary64], by norm_num [binary64]⟩, ?_⟩, by
    rw [abs_of_pos (by norm_num)]; norm_num, ?_, ?_⟩
  · unfold BinPar.bound binary64
    have h : (2 : ℚ) ^ (2 : ℤ) ≤ 2 ^ (((53 : ℕ) : ℤ) + 971) := zpow_le_zpow_right₀ (by norm_num) (by norm_num)
    rw [abs_of_pos (by norm_num)]
    refine lt_of_lt_of_le ?_ h
    norm_num
  · have := two_zpow_pos (-(binary64.p : ℤ) - 1)
    rw [abs_of_pos (by norm_num)]
    intro h; linarith
  · intro n hn
    have : (3 : ℚ) = 2 * n := by linarith
    have : (3 : ℤ) = 2 * n := by exact_mod_cast this
    omega

/-- In every format with at least 3 and at most 62 bits `round` maps a number less than one half to 1. -/
theorem C85_below_half_fails (P : BinPar) (hp : P.p ≤ 62) :
    ∃ (v : ℚ) (hv : P.fmt.rep v), 0 < v ∧ v < 1 / 2 ∧ roundG P.half (Flt.fin v hv) = some 1 := by
  have hp3 := P.hp
  have hmin := P.hmin
  have hpos := two_zpow_pos (-(P.p : ℤ) - 1)
  have hlt : (2 : ℚ) ^ (-(P.p : ℤ) - 1) ≤ 2 ^ (-4 : ℤ) := zpow_le_zpow_right₀ (by norm_num) (by omega)
  have hz : (2 : ℚ) ^ (-(P.p : ℤ) - 1) * 2 ^ P.p = 1 / 2 := by
    rw [← zpow_natCast, ← zpow_add2, show -(P.p : ℤ) - 1 + P.p = -1 by ring, zpow_neg_one]; norm_num
  norm_num at hlt
  have hv : P.fmt.rep (1 / 2 - 2 ^ (-(P.p : ℤ) - 1)) := by
    refine ⟨⟨2 ^ P.p - 1, -(P.p : ℤ) - 1, by push_cast; linarith, ?_, by omega⟩, ?_⟩
    · have : (1 : ℤ) ≤ 2 ^ P.p := one_le_pow₀ (by norm_num)
      rw [abs_of_nonneg (by omega)]; omega
    · rw [abs_of_pos (by linarith)]; linarith [P.one_lt_bound]
  refine ⟨_, hv, by linarith, by linarith, ?_⟩
  have ha : |(1 / 2 - 2 ^ (-(P.p : ℤ) - 1) : ℚ)| = 1 / 2 - 2 ^ (-(P.p : ℤ) - 1) := abs_of_pos (by linarith)
  obtain ⟨r, h, h1, -, h2, -⟩ := C85_round_partial P hp _ hv (by rw [ha]; norm_num; linarith)
  obtain ⟨h3, h4⟩ := h2 ha
  have hr : (r : ℚ) = 1 := by
    have : (0 : ℚ) < r := pos_of_mul_pos_left h4 (by linarith)
    rwa [abs_of_pos this] at h3
  rw [h1]
  exact congrArg some (fin_congr _ hr)

/-- `round(8388609.0f)` is 8388610. -/
theorem C85_odd_integer_fails :
    ∃ (hv : binary32.fmt.rep 8388609) (hr : binary32.fmt.rep 8388610),
      roundG binary32.half (Flt.fin 8388609 hv) = some (Flt.fin 8388610 hr) := by
  have hb : ∀ n : ℤ, |n| ≤ 2 ^ 24 → binary32.fmt.rep n := fun n hn => binary32.rep_of_int hn
  have hv : binary32.fmt.rep 8388609 := by exact_mod_cast hb 8388609 (by norm_num)
  have hr : binary32.fmt.rep 8388610 := by exact_mod_cast hb 8388610 (by norm_num)
  refine ⟨hv, hr, ?_⟩
  have ha : |(8388609 : ℚ)| = 8388609 := abs_of_pos (by norm_num)
  obtain ⟨r, h, h1, -, -, h2⟩ := C85_round_partial binary32 (by norm_num [binary32]) _ hv (by rw [ha]; norm_num)
  obtain ⟨h3, h4⟩ := h2 8388609 (by norm_num) (by norm_num) (by rw [ha]; norm_num [binary32]) (by rw [ha]; norm_num [binary32])
  rw [ha] at h3
  have hre : (r : ℚ) = 8388610 := by
    have : (0 : ℚ) < r := pos_of_mul_pos_left h4 (by norm_num)
    rw [abs_of_pos this] at h3; linarith
  rw [h1]
  exact congrArg some (fin_congr _ hre)

end vm
