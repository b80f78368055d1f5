import Verif.Props.ModFlt
import Verif.Props.RoundingFlt
import Verif.Props.FltLength
import Verif.Props.FltMat

/-! C104, C105: snapping to a grid and `correct` in IEEE arithmetic. -/

set_option linter.unusedSectionVars false
set_option linter.unusedSimpArgs false

namespace vm
open BinPar

theorem snapUpG_exact {K : Type*} [Field K] [LinearOrder K] [IsStrictOrderedRing K] [FloorRing K] (v grid : K) :
    snapUpG v grid = snapUp v grid := by
  unfold snapUpG snapUp; rw [roundUpG_exact]; simp

theorem snapDownG_exact {K : Type*} [Field K] [LinearOrder K] [IsStrictOrderedRing K] [FloorRing K] (v grid : K) :
    snapDownG v grid = snapDown v grid := by
  unfold snapDownG snapDown; rw [roundDownG_exact]; simp

theorem correctG_exact {K : Type*} [Field K] [LinearOrder K] [IsStrictOrderedRing K] [FloorRing K] (v : K) (d : ℕ) (e : K) :
    correctG (1 / 2) v d e = correct v d e := by
  unfold correctG correct
  split
  · rfl
  · have h : (Int64Cast.ofInt64 (2 ^ d) : K) = 2 ^ d := by
      show (((2 ^ d : ℤ)) : K) = 2 ^ d
      push_cast; rfl
    simp only [h, roundG_exact]
    simp

variable {P : BinPar}

/-- The product of a number of the format and an integer never underflows. -/
theorem fl_int_mul {g : ℚ} (hg : P.Rep g) (n : ℤ) : |P.fl (g * n) - g * n| ≤ P.u * |g * n| := by
  rcases le_or_gt ((2 : ℚ) ^ (P.qmin + P.p - 1)) |g * n| with h | h
  · exact fl_err_rel h
  · obtain ⟨k, hk⟩ := hg.multiple_qmin
    have : P.Rep (g * n) := by
      refine P.rep_multiple (e := P.qmin) le_rfl (h.le.trans ?_) (m := k * n) ?_
      · exact zpow_le_zpow_right₀ (by norm_num) (by linarith)
      · rw [hk]; push_cast; ring
    rw [P.fl_rep this]
    have := P.u_pos
    simp only [sub_self, abs_zero]; positivity

theorem u_mul (P : BinPar) : P.u * 2 ^ (P.p - 3) = 1 / 8 := by
  have hp := P.hp
  unfold BinPar.u
  rw [← zpow_natCast, ← zpow_add2]
  have : (-(P.p : ℤ) + ((P.p - 3 : ℕ) : ℤ)) = -3 := by omega
  rw [this]; norm_num

theorem rep_pow3 (P : BinPar) : P.fmt.rep (2 ^ (P.p - 3)) := by
  have := P.rep_of_int (n := 2 ^ (P.p - 3)) (by
    rw [abs_of_pos (by positivity)]
    exact pow_le_pow_right₀ (by norm_num) (by omega))
  exact_mod_cast this

theorem quot_rep {x : ℚ} (h : |x| ≤ 2 ^ (P.p - 3)) : P.fmt.rep (P.fl x) ∧ |P.fl x| ≤ 2 ^ (P.p - 3) := by
  have h3 := rep_pow3 P
  rw [abs_le] at h
  have hb : |P.fl x| ≤ 2 ^ (P.p - 3) := by
    rw [abs_le]
    refine ⟨P.le_fl_of_rep h3.1.neg h.1, P.fl_le_of_rep h3.1 h.2⟩
  refine ⟨rep_of_fl (lt_of_le_of_lt hb ?_), hb⟩
  have := h3.2
  rwa [abs_of_pos (by positivity)] at this

/-- `round` for numbers well inside the precision. -/
theorem roundG_small (hp : P.p ≤ 62) {q : ℚ} (hq : P.fmt.rep q) (h : |q| ≤ 2 ^ (P.p - 3)) :
    ∃ (n : ℤ) (hn : P.fmt.rep (n : ℚ)), roundG P.half (Flt.fin q hq) = some (Flt.fin (F := P.fmt) (n : ℚ) hn) ∧
      |q - n| ≤ 1 / 2 + P.u / 2 := by
  have hp3 := P.hp
  have hu := P.u_pos
  have h63 : (2 : ℚ) ^ (P.p - 3) < 2 ^ 63 := pow_lt_pow_right₀ (by norm_num) (by omega)
  obtain ⟨n, hn, hr, h1, h2, -⟩ := C85_round_partial P hp q hq (h.trans_lt h63)
  refine ⟨n, hn, hr, ?_⟩
  by_cases he : |q| = 1 / 2 - 2 ^ (-(P.p : ℤ) - 1)
  · obtain ⟨h3, h4⟩ := h2 he
    have e : (2 : ℚ) ^ (-(P.p : ℤ) - 1) = P.u / 2 := by
      unfold BinPar.u; rw [sub_eq_add_neg, zpow_add2]; norm_num; ring
    rw [e] at he
    have hu8 := u_le P
    rcases abs_cases q with ⟨a1, a2⟩ | ⟨a1, a2⟩ <;> rcases abs_cases (n : ℚ) with ⟨b1, b2⟩ | ⟨b1, b2⟩ <;>
      rw [a1] at he <;> rw [b1] at h3
    · rw [abs_le]; constructor <;> linarith
    · nlinarith
    · nlinarith
    · rw [abs_le]; constructor <;> linarith
  · have := (h1 he (fun m hm _ => Or.inl (lt_of_le_of_lt h (pow_lt_pow_right₀ (by norm_num) (by omega))))).1
    linarith

theorem snap_core (hp : P.p ≤ 62) {v g : ℚ} (hv : P.fmt.rep v) (hg : P.fmt.rep g) (hg0 : g ≠ 0) (h : |v / g| ≤ 2 ^ (P.p - 3)) :
    ∃ n : ℤ, snapG P.half (Flt.fin v hv) (Flt.fin g hg) = some (Flt.round (g * n) : Flt P.fmt) ∧ |P.fl (v / g) - n| ≤ 1 / 2 + P.u / 2 := by
  obtain ⟨hq, hb⟩ := quot_rep h
  obtain ⟨n, hn, hr, he⟩ := roundG_small hp hq hb
  refine ⟨n, ?_, he⟩
  have hc : Cmp.eq (Flt.fin g hg : Flt P.fmt) 0 = false := by
    show decide (Ext.ofRat g = Ext.ofRat 0) = false
    rw [decide_eq_false_iff_not]
    intro e
    exact hg0 (by simpa [Ext.ofRat] using e)
  unfold snapG
  rw [hc, div_fin _ _ hg0, round_fl hq, hr]
  rfl

/-- `snap` returns the product of the grid size and an integer whose multiple of the grid is nearest to the value up to one
rounding error of the value and of the grid, rounded once. -/
theorem C104_snap (P : BinPar) (hp : P.p ≤ 62) (v g : ℚ) (hv : P.fmt.rep v) (hg : P.fmt.rep g) (hg0 : g ≠ 0)
    (h : |v| ≤ |g| * 2 ^ (P.p - 3)) :
    ∃ n : ℤ, snapG P.half (Flt.fin v hv) (Flt.fin g hg) = some (Flt.round (g * n) : Flt P.fmt) ∧
      |v - g * n| ≤ |g| / 2 + P.u * (|v| + |g|) ∧
      ((Flt.round (g * n) : Flt P.fmt).isFinite → |(Flt.round (g * n) : Flt P.fmt).val - g * n| ≤ P.u * |g * n|) := by
  have hga : 0 < |g| := abs_pos.2 hg0
  have hx : |v / g| ≤ 2 ^ (P.p - 3) := by rw [abs_div, div_le_iff₀ hga]; linarith
  obtain ⟨n, hs, he⟩ := snap_core hp hv hg hg0 hx
  refine ⟨n, hs, ?_, fun hf => ?_⟩
  · have h1 := fl_err_u (P := P) (v / g)
    have h2 := P.eta_le
    have hu := P.u_pos
    have hu8 := u_le P
    have h3 : |v / g - n| ≤ 1 / 2 + P.u * |v / g| + P.u := by
      have : |v / g - n| ≤ |P.fl (v / g) - v / g| + |P.fl (v / g) - n| := by
        rw [abs_sub_comm (P.fl (v / g))]; exact abs_sub_le _ _ _
      nlinarith
    have e : v - g * n = g * (v / g - n) := by field_simp
    have e2 : |v| = |g| * |v / g| := by rw [← abs_mul]; congr 1; field_simp
    rw [e, abs_mul, e2]
    calc |g| * |v / g - n| ≤ |g| * (1 / 2 + P.u * |v / g| + P.u) := mul_le_mul_of_nonneg_left h3 hga.le
      _ = _ := by ring
  · rw [Flt.round_val hf]; exact fl_int_mul hg.1 n

/-- Snapping 1.3 to the grid 0.5, rounded to `double`. -/
example : binary64.p ≤ 62 ∧ ∃ v g : ℚ, binary64.fmt.rep v ∧ binary64.fmt.rep g ∧ g ≠ 0 ∧ |v| ≤ |g| * 2 ^ (binary64.p - 3) ∧ v / g ≠ ⌊v / g⌋ := by
  refine ⟨by norm_num [binary64], 3 / 4, 1 / 2, rep64 3 (-2) (by norm_num) (by norm_num) (by norm_num) (by rw [abs_of_pos (by norm_num)]; norm_num),
    rep64 1 (-1) (by norm_num) (by norm_num) (by norm_num) (by rw [abs_of_pos (by norm_num)]; norm_num), by norm_num, by norm_num [binary64, abs_of_pos], ?_⟩
  have : ⌊(3 / 4 : ℚ) / (1 / 2)⌋ = 1 := by rw [Int.floor_eq_iff]; norm_num
  rw [this]; norm_num

/-- Snapping is idempotent: a snapped value is not moved by snapping it again. -/
theorem C104_snap_idempotent (P : BinPar) (hp : P.p ≤ 62) (v g : ℚ) (hv : P.fmt.rep v) (hg : P.fmt.rep g) (hg0 : g ≠ 0)
    (h : |v| ≤ |g| * (2 ^ (P.p - 3) - 1)) (s : Flt P.fmt) (hs : snapG P.half (Flt.fin v hv) (Flt.fin g hg) = some s) (hf : s.isFinite) :
    snapG P.half s (Flt.fin g hg) = some s := by
  have hga : 0 < |g| := abs_pos.2 hg0
  have hu := P.u_pos
  have hu8 := u_le P
  have heta := P.eta_le
  have hum := u_mul P
  have hN : (1 : ℚ) ≤ 2 ^ (P.p - 3) := one_le_pow₀ (by norm_num)
  have hx1 : |v / g| ≤ 2 ^ (P.p - 3) - 1 := by rw [abs_div, div_le_iff₀ hga]; linarith
  obtain ⟨n, hs', he⟩ := snap_core hp hv hg hg0 (hx1.trans (by linarith))
  rw [hs'] at hs
  obtain rfl : s = Flt.round (g * n) := (Option.some.inj hs).symm
  -- the integer is small
  have hq1 : |P.fl (v / g)| ≤ 2 ^ (P.p - 3) - 1 := by
    have hr : P.Rep (2 ^ (P.p - 3) - 1) := by
      have := P.rep_int (n := 2 ^ (P.p - 3) - 1) (by
        have h1 : (1 : ℤ) ≤ 2 ^ (P.p - 3) := one_le_pow₀ (by norm_num)
        have h2 : (2 : ℤ) ^ (P.p - 3) ≤ 2 ^ P.p := pow_le_pow_right₀ (by norm_num) (by omega)
        rw [abs_of_nonneg (by linarith)]; linarith)
      exact_mod_cast this
    rw [abs_le] at hx1 ⊢
    have h1 := P.le_fl_of_rep hr.neg (x := v / g) (by linarith [hx1.1])
    exact ⟨by linarith, P.fl_le_of_rep hr hx1.2⟩
  have hn : |(n : ℚ)| ≤ 2 ^ (P.p - 3) - 1 := by
    have h1 : |(n : ℚ)| ≤ |P.fl (v / g)| + |P.fl (v / g) - n| := by
      have := abs_sub_abs_le_abs_sub (n : ℚ) (P.fl (v / g))
      rw [abs_sub_comm] at this; linarith
    have h2 : |(n : ℚ)| < 2 ^ (P.p - 3) := by linarith
    have h3 : |n| < 2 ^ (P.p - 3) := by exact_mod_cast h2
    have h4 : |n| ≤ 2 ^ (P.p - 3) - 1 := by omega
    exact_mod_cast h4
  have hr := rep_of_fl (Flt.round_finite.1 hf)
  have e := round_fl hr
  have h1 := fl_int_mul hg.1 n
  have h2 : |P.fl (g * n) / g - n| ≤ P.u * |(n : ℚ)| := by
    have e1 : P.fl (g * n) / g - n = (P.fl (g * n) - g * n) / g := by field_simp
    rw [e1, abs_div, div_le_iff₀ hga]
    rw [abs_mul] at h1; linarith
  have h3 : |P.fl (g * n) / g| ≤ |(n : ℚ)| + P.u * |(n : ℚ)| := by
    have := abs_sub_abs_le_abs_sub (P.fl (g * n) / g) (n : ℚ); linarith
  have h4 : P.u * |(n : ℚ)| ≤ 1 / 8 := by rw [← hum]; exact mul_le_mul_of_nonneg_left (by linarith) hu.le
  obtain ⟨n', hs2, he2⟩ := snap_core hp hr hg hg0 (h3.trans (by linarith))
  rw [e, hs2]
  have h5 := fl_err_u (P := P) (P.fl (g * n) / g)
  have h6 : P.u * |P.fl (g * n) / g| ≤ 1 / 8 + 1 / 64 := by
    calc P.u * |P.fl (g * n) / g| ≤ P.u * (|(n : ℚ)| + P.u * |(n : ℚ)|) := mul_le_mul_of_nonneg_left h3 hu.le
      _ = P.u * |(n : ℚ)| + P.u * (P.u * |(n : ℚ)|) := by ring
      _ ≤ 1 / 8 + 1 / 8 * (1 / 8) := add_le_add h4 (mul_le_mul hu8 h4 (by positivity) (by norm_num))
      _ = _ := by norm_num
  have heq : n' = n := by
    have : |((n' - n : ℤ) : ℚ)| < 1 := by
      push_cast
      have t1 : |(n' : ℚ) - n| ≤ |P.fl (P.fl (g * n) / g) - n'| + |P.fl (P.fl (g * n) / g) - P.fl (g * n) / g| + |P.fl (g * n) / g - n| := by
        calc |(n' : ℚ) - n| = |-(P.fl (P.fl (g * n) / g) - n') + (P.fl (P.fl (g * n) / g) - P.fl (g * n) / g) + (P.fl (g * n) / g - n)| := by congr 1; ring
          _ ≤ |-(P.fl (P.fl (g * n) / g) - n') + (P.fl (P.fl (g * n) / g) - P.fl (g * n) / g)| + |P.fl (g * n) / g - n| := abs_add_le _ _
          _ ≤ |-(P.fl (P.fl (g * n) / g) - n')| + |P.fl (P.fl (g * n) / g) - P.fl (g * n) / g| + |P.fl (g * n) / g - n| := by
            have := abs_add_le (-(P.fl (P.fl (g * n) / g) - n')) (P.fl (P.fl (g * n) / g) - P.fl (g * n) / g); linarith
          _ = _ := by rw [abs_neg]
      nlinarith
    have h7 : |n' - n| < 1 := by exact_mod_cast this
    have := Int.abs_lt_one_iff.1 h7
    omega
  rw [heq, ← e]

/-- Points of the grid are fixed points of all three functions. -/
theorem C104_grid (P : BinPar) (hp : P.p ≤ 62) (g : ℚ) (n : ℤ) (hg : P.fmt.rep g) (hg0 : g ≠ 0) (hv : P.fmt.rep (g * n)) :
    (|n| < 2 ^ (P.p - 1) → snapG P.half (Flt.fin (g * n) hv) (Flt.fin g hg) = some (Flt.fin (F := P.fmt) (g * n) hv)) ∧
    (0 < g → |n| ≤ 2 ^ P.p → snapUpG (Flt.fin (g * n) hv) (Flt.fin g hg) = some (Flt.fin (F := P.fmt) (g * n) hv) ∧
      snapDownG (Flt.fin (g * n) hv) (Flt.fin g hg) = some (Flt.fin (F := P.fmt) (g * n) hv)) := by
  have hp3 := P.hp
  have hq : g * n / g = n := by field_simp
  constructor
  · intro hn
    have hnq : |(n : ℚ)| < 2 ^ (P.p - 1) := by exact_mod_cast hn
    have hle : |n| ≤ 2 ^ P.p := hn.le.trans (pow_le_pow_right₀ (by norm_num) (by omega))
    have hnr := P.rep_of_int hle
    have h63 : (2 : ℚ) ^ (P.p - 1) < 2 ^ 63 := pow_lt_pow_right₀ (by norm_num) (by omega)
    obtain ⟨r, hr, e, h1, h2, -⟩ := C85_round_partial P hp n hnr (hnq.trans h63)
    have hne : |(n : ℚ)| ≠ 1 / 2 - 2 ^ (-(P.p : ℤ) - 1) := by
      intro hc
      have hpos := two_zpow_pos (-(P.p : ℤ) - 1)
      have hlt : (2 : ℚ) ^ (-(P.p : ℤ) - 1) ≤ 2 ^ (-4 : ℤ) := zpow_le_zpow_right₀ (by norm_num) (by omega)
      norm_num at hlt
      have h3 : |(n : ℚ)| < 1 := by linarith
      have h4 : |n| < 1 := by exact_mod_cast h3
      rw [Int.abs_lt_one_iff.1 h4] at hc
      simp at hc; linarith
    have h3 := (h1 hne fun m hm _ => Or.inl hnq).1
    have h4 : r = n := by
      have : |((n - r : ℤ) : ℚ)| < 1 := by push_cast; linarith
      have h5 : |n - r| < 1 := by exact_mod_cast this
      have := Int.abs_lt_one_iff.1 h5; omega
    subst h4
    have hc : Cmp.eq (Flt.fin g hg : Flt P.fmt) 0 = false := by
      show decide (Ext.ofRat g = Ext.ofRat 0) = false
      rw [decide_eq_false_iff_not]
      intro e
      exact hg0 (by simpa [Ext.ofRat] using e)
    unfold snapG
    rw [hc, div_fin _ _ hg0, hq, round_rep hnr, e]
    show some (Flt.round (g * r)) = _
    rw [round_rep hv]
  · intro hpos hn
    have hnr := P.rep_of_int hn
    have hnq : |(n : ℚ)| ≤ 2 ^ P.p := by exact_mod_cast hn
    have h63 : (2 : ℚ) ^ P.p < 2 ^ 63 := pow_lt_pow_right₀ (by norm_num) (by omega)
    have hlt : Cmp.lt (0 : Flt P.fmt) (Flt.fin g hg) = true := by rw [zero_fin, lt_fin]; simpa using hpos
    rw [abs_le] at hnq
    obtain ⟨-, -, -, ⟨k1, h1⟩, ⟨k2, h2⟩, -⟩ := C84_exact P n hnr (by linarith) (by linarith)
    simp only [Int.floor_intCast, Int.ceil_intCast, ite_self] at h1 h2
    constructor
    · unfold snapUpG
      rw [if_pos hlt, div_fin _ _ hg0, hq, round_rep hnr, h2]
      show some (Flt.round (g * n)) = _
      rw [round_rep hv]
    · unfold snapDownG
      rw [if_pos hlt, div_fin _ _ hg0, hq, round_rep hnr, h1]
      show some (Flt.round (g * n)) = _
      rw [round_rep hv]

/-- The number 3/4 is three quarters on the grid 1/4. -/
example : binary64.p ≤ 62 ∧ binary64.fmt.rep (1 / 4) ∧ binary64.fmt.rep (1 / 4 * (3 : ℤ)) ∧ |(3 : ℤ)| < 2 ^ (binary64.p - 1) := by
  refine ⟨by norm_num [binary64], rep64 1 (-2) (by norm_num) (by norm_num) (by norm_num) (by rw [abs_of_pos (by norm_num)]; norm_num),
    rep64 3 (-2) (by norm_num) (by norm_num) (by norm_num) (by rw [abs_of_pos (by norm_num)]; norm_num), by norm_num [binary64]⟩

/-- The bound on the number of grid steps is needed: `snap` moves the grid point `2^(p-1) + 1` of the grid with size 1. -/
theorem C104_grid_fails (P : BinPar) (hp : P.p ≤ 62) :
    ∃ (hv : P.fmt.rep ((2 ^ (P.p - 1) + 1 : ℤ) : ℚ)) (hs : P.fmt.rep ((2 ^ (P.p - 1) + 2 : ℤ) : ℚ)),
      snapG P.half (Flt.fin _ hv) 1 = some (Flt.fin (F := P.fmt) _ hs) := by
  have hp3 := P.hp
  have h4 : (4 : ℤ) ≤ 2 ^ (P.p - 1) := by
    calc (4 : ℤ) = 2 ^ 2 := by norm_num
      _ ≤ 2 ^ (P.p - 1) := pow_le_pow_right₀ (by norm_num) (by omega)
  have hd : (2 : ℤ) ^ P.p = 2 * 2 ^ (P.p - 1) := by rw [← pow_succ']; congr 1; omega
  have hdq : (2 : ℚ) ^ P.p = 2 * 2 ^ (P.p - 1) := by exact_mod_cast hd
  have h4q : (4 : ℚ) ≤ 2 ^ (P.p - 1) := by exact_mod_cast h4
  have hv : P.fmt.rep ((2 ^ (P.p - 1) + 1 : ℤ) : ℚ) := P.rep_of_int (by rw [abs_of_pos (by linarith)]; linarith)
  have hs : P.fmt.rep ((2 ^ (P.p - 1) + 2 : ℤ) : ℚ) := P.rep_of_int (by rw [abs_of_pos (by linarith)]; linarith)
  refine ⟨hv, hs, ?_⟩
  have h63 : (2 : ℚ) ^ P.p < 2 ^ 63 := pow_lt_pow_right₀ (by norm_num) (by omega)
  have habs : |((2 ^ (P.p - 1) + 1 : ℤ) : ℚ)| = 2 ^ (P.p - 1) + 1 := by push_cast; exact abs_of_pos (by linarith)
  obtain ⟨r, hr, e, -, -, h3⟩ := C85_round_partial P hp _ hv (by rw [habs]; linarith)
  obtain ⟨h5, h6⟩ := h3 (2 ^ (P.p - 1) + 1) rfl (by
    have : (2 : ℤ) ^ (P.p - 1) = 2 * 2 ^ (P.p - 2) := by rw [← pow_succ']; congr 1; omega
    omega) (by rw [habs]; linarith) (by rw [habs]; linarith)
  have hr0 : (0 : ℚ) < r := by
    have : (0 : ℚ) < ((2 ^ (P.p - 1) + 1 : ℤ) : ℚ) := by push_cast; linarith
    by_contra hc
    nlinarith
  rw [abs_of_pos hr0, habs] at h5
  have h7 : r = 2 ^ (P.p - 1) + 2 := by
    have : (r : ℚ) = ((2 ^ (P.p - 1) + 2 : ℤ) : ℚ) := by push_cast; linarith
    exact_mod_cast this
  subst h7
  have hc : Cmp.eq (1 : Flt P.fmt) 0 = false := by
    show decide (Ext.ofRat 1 = Ext.ofRat 0) = false
    rw [decide_eq_false_iff_not]
    intro e
    simp [Ext.ofRat] at e
  unfold snapG
  rw [hc, Flt.div_one', e]
  show some (1 * Flt.fin (F := P.fmt) _ hr) = _
  rw [Flt.one_mul']

/-- The hypothesis on the format holds for `float` and `double`. -/
example : binary32.p ≤ 62 ∧ binary64.p ≤ 62 := by norm_num [binary32, binary64]

theorem roundG_some {x r : Flt P.fmt} (h : roundG P.half x = some r) : x.isFinite := by
  rcases x with _ | _ | _ | ⟨q, hq⟩
  · cases h
  · cases h
  · cases h
  · trivial

/-- Snapping is monotone for a positive grid size. -/
theorem C104_snap_monotone (P : BinPar) (hp : P.p ≤ 62) (v w g : ℚ) (hv : P.fmt.rep v) (hw : P.fmt.rep w) (hg : P.fmt.rep g) (hg0 : 0 < g)
    (h1 : |v| ≤ g * 2 ^ 62) (h2 : |w| ≤ g * 2 ^ 62) (hvw : v ≤ w) (s t : Flt P.fmt)
    (hs : snapG P.half (Flt.fin v hv) (Flt.fin g hg) = some s) (ht : snapG P.half (Flt.fin w hw) (Flt.fin g hg) = some t) :
    Cmp.le s t = true := by
  have hp3 := P.hp
  have hc : Cmp.eq (Flt.fin g hg : Flt P.fmt) 0 = false := by
    show decide (Ext.ofRat g = Ext.ofRat 0) = false
    rw [decide_eq_false_iff_not]
    intro e
    exact hg0.ne' (by simpa [Ext.ofRat] using e)
  have rep62 : P.Rep (2 ^ 62) := ⟨1, 62, by norm_num, by rw [abs_one]; exact one_lt_pow₀ (by norm_num) (by omega), by have := P.hmin; omega⟩
  have key : ∀ (v : ℚ) (hv : P.fmt.rep v) (s : Flt P.fmt), |v| ≤ g * 2 ^ 62 → snapG P.half (Flt.fin v hv) (Flt.fin g hg) = some s →
      s = Flt.round (g * ((if 0 < P.fl (v / g) then ⌊P.fl (|P.fl (v / g)| + 1 / 2)⌋ else -⌊P.fl (|P.fl (v / g)| + 1 / 2)⌋ : ℤ) : ℚ)) := by
    intro v hv s h1 hs
    unfold snapG at hs
    rw [hc, div_fin _ _ hg0.ne'] at hs
    rcases hr : roundG P.half (Flt.round (v / g) : Flt P.fmt) with _ | r
    · rw [hr] at hs; cases hs
    have hf := roundG_some hr
    have hq := rep_of_fl (Flt.round_finite.1 hf)
    have hb : |P.fl (v / g)| ≤ 2 ^ 62 := by
      have : |v / g| ≤ 2 ^ 62 := by rw [abs_div, abs_of_pos hg0, div_le_iff₀ hg0]; linarith
      rw [abs_le] at this ⊢
      exact ⟨P.le_fl_of_rep rep62.neg this.1, P.fl_le_of_rep rep62 this.2⟩
    obtain ⟨n, hn, e1, e2⟩ := roundG_fin hp hq (lt_of_le_of_lt hb (by norm_num))
    rw [round_fl hq, e1] at hs
    rw [← e2]
    exact (Option.some.inj hs).symm
  rw [key v hv s h1 hs, key w hw t h2 ht]
  refine Flt.round_mono (mul_le_mul_of_nonneg_left ?_ hg0.le)
  have hq : P.fl (v / g) ≤ P.fl (w / g) := P.fl_mono (div_le_div_of_nonneg_right hvw hg0.le)
  have hnn : ∀ q : ℚ, 0 ≤ ⌊P.fl (|q| + 1 / 2)⌋ := fun q => Int.floor_nonneg.2 (P.fl_nonneg (by positivity))
  have h3 := hnn (P.fl (v / g))
  have h4 := hnn (P.fl (w / g))
  norm_cast
  split_ifs with a b b
  · exact Int.floor_le_floor (P.fl_mono (by rw [abs_of_pos a, abs_of_pos b]; linarith))
  · exact absurd (a.trans_le hq) b
  · omega
  · rw [neg_le_neg_iff]
    exact Int.floor_le_floor (P.fl_mono (by rw [abs_of_nonpos (not_lt.1 a), abs_of_nonpos (not_lt.1 b)]; linarith))

/-- 3/4 and 2 on the grid 1/2. -/
example : ∃ v w g : ℚ, binary64.fmt.rep v ∧ binary64.fmt.rep w ∧ binary64.fmt.rep g ∧ 0 < g ∧ |v| ≤ g * 2 ^ 62 ∧ |w| ≤ g * 2 ^ 62 ∧ v < w := by
  refine ⟨3 / 4, 2, 1 / 2, rep64 3 (-2) (by norm_num) (by norm_num) (by norm_num) (by rw [abs_of_pos (by norm_num)]; norm_num),
    rep64 2 0 (by norm_num) (by norm_num) (by norm_num) (by rw [abs_of_pos (by norm_num)]; norm_num),
    rep64 1 (-1) (by norm_num) (by norm_num) (by norm_num) (by rw [abs_of_pos (by norm_num)]; norm_num), by norm_num, ?_, ?_, by norm_num⟩
  · rw [abs_of_pos (by norm_num)]; norm_num
  · rw [abs_of_pos (by norm_num)]; norm_num

/-- What `snapDown` and `snapUp` return: a multiple of the grid next to the value in the direction of zero or away from it, up to
rounding errors of the value and the grid; the multiple is rounded once. -/
theorem C104_snap_down_up (P : BinPar) (hp : P.p ≤ 62) (v g : ℚ) (hv : P.fmt.rep v) (hg : P.fmt.rep g) (hg0 : 0 < g)
    (h : |v| ≤ g * 2 ^ (P.p - 3)) :
    (∃ n : ℤ, snapDownG (Flt.fin v hv) (Flt.fin g hg) = some (Flt.round (g * n) : Flt P.fmt) ∧ 0 ≤ n * v ∧
      |g * n| ≤ |v| + P.u * (|v| + g) ∧ |v| < |g * n| + g + P.u * (|v| + g)) ∧
    (∃ n : ℤ, snapUpG (Flt.fin v hv) (Flt.fin g hg) = some (Flt.round (g * n) : Flt P.fmt) ∧ 0 ≤ n * v ∧
      |v| ≤ |g * n| + P.u * (|v| + g) ∧ |g * n| < |v| + g + P.u * (|v| + g)) := by
  have hp3 := P.hp
  have hu := P.u_pos
  have hu8 := u_le P
  have heta := P.eta_le
  have hx : |v / g| ≤ 2 ^ (P.p - 3) := by rw [abs_div, abs_of_pos hg0, div_le_iff₀ hg0]; linarith
  obtain ⟨hq, hb⟩ := quot_rep hx
  have h63 : (2 : ℚ) ^ (P.p - 3) < 2 ^ 63 := pow_lt_pow_right₀ (by norm_num) (by omega)
  have herr := fl_err_u (P := P) (v / g)
  have hqv : 0 ≤ P.fl (v / g) * v := by
    rcases le_total 0 v with h0 | h0
    · exact mul_nonneg (P.fl_nonneg (by positivity)) h0
    · have : P.fl (v / g) ≤ 0 := by
        have := P.fl_mono (div_nonpos_of_nonpos_of_nonneg h0 hg0.le)
        rwa [P.fl_zero] at this
      exact mul_nonneg_of_nonpos_of_nonpos this h0
  have hlt : Cmp.lt (0 : Flt P.fmt) (Flt.fin g hg) = true := by rw [zero_fin, lt_fin]; simpa using hg0
  have hab : |P.fl (v / g)| - |v / g| ≤ P.u * |v / g| + P.u ∧ |v / g| - |P.fl (v / g)| ≤ P.u * |v / g| + P.u := by
    have a := abs_sub_abs_le_abs_sub (P.fl (v / g)) (v / g)
    have b := abs_sub_abs_le_abs_sub (v / g) (P.fl (v / g))
    rw [abs_sub_comm] at b
    constructor <;> nlinarith
  have e2 : |v| = g * |v / g| := by rw [abs_div, abs_of_pos hg0]; field_simp
  have hqb := abs_le.1 hb
  obtain ⟨-, -, -, ⟨k1, d1⟩, ⟨k2, d2⟩, -⟩ := C84_exact P _ hq (by linarith [hqb.1]) (by linarith [hqb.2])
  set q := P.fl (v / g) with hqdef
  have f1 := Int.floor_le q
  have f2 := Int.lt_floor_add_one q
  have c1 := Int.le_ceil q
  have c2 := Int.ceil_lt_add_one q
  -- sign and size of the integers
  have hdown : |(((if 0 ≤ q then ⌊q⌋ else ⌈q⌉ : ℤ)) : ℚ)| ≤ |q| ∧ |q| < |(((if 0 ≤ q then ⌊q⌋ else ⌈q⌉ : ℤ)) : ℚ)| + 1 ∧
      0 ≤ (((if 0 ≤ q then ⌊q⌋ else ⌈q⌉ : ℤ)) : ℚ) * q := by
    split_ifs with h0
    · have : (0 : ℚ) ≤ ⌊q⌋ := by exact_mod_cast Int.floor_nonneg.2 h0
      rw [abs_of_nonneg this, abs_of_nonneg h0]
      exact ⟨f1, f2, mul_nonneg this h0⟩
    · have h0 := not_le.1 h0
      have : (⌈q⌉ : ℚ) ≤ 0 := by exact_mod_cast Int.ceil_le.2 (by push_cast; exact h0.le)
      rw [abs_of_nonpos this, abs_of_neg h0]
      exact ⟨by linarith, by linarith, mul_nonneg_of_nonpos_of_nonpos this h0.le⟩
  have hup : |q| ≤ |(((if 0 ≤ q then ⌈q⌉ else ⌊q⌋ : ℤ)) : ℚ)| ∧ |(((if 0 ≤ q then ⌈q⌉ else ⌊q⌋ : ℤ)) : ℚ)| < |q| + 1 ∧
      0 ≤ (((if 0 ≤ q then ⌈q⌉ else ⌊q⌋ : ℤ)) : ℚ) * q := by
    split_ifs with h0
    · have : (0 : ℚ) ≤ ⌈q⌉ := by linarith
      rw [abs_of_nonneg this, abs_of_nonneg h0]
      exact ⟨c1, c2, mul_nonneg this h0⟩
    · have h0 := not_le.1 h0
      have : (⌊q⌋ : ℚ) ≤ 0 := by linarith
      rw [abs_of_nonpos this, abs_of_neg h0]
      exact ⟨by linarith, by linarith, mul_nonneg_of_nonpos_of_nonpos this h0.le⟩
  have hsign : ∀ n : ℚ, 0 ≤ n * q → (q = 0 → n = 0) → 0 ≤ n * v := by
    intro n hn h0
    rcases lt_trichotomy q 0 with a | a | a
    · have : n ≤ 0 := by by_contra hc; nlinarith
      have : v ≤ 0 := by by_contra hc; nlinarith
      nlinarith
    · rw [h0 a, zero_mul]
    · have : 0 ≤ n := by by_contra hc; nlinarith
      have : 0 ≤ v := by by_contra hc; nlinarith
      nlinarith
  constructor
  · refine ⟨_, ?_, hsign _ hdown.2.2 ?_, ?_, ?_⟩
    · unfold snapDownG
      rw [if_pos hlt, div_fin _ _ hg0.ne', round_fl hq, d1]
      rfl
    · intro h0; rw [h0]; simp
    · rw [abs_mul, abs_of_pos hg0, e2]
      have := mul_le_mul_of_nonneg_left (show |(((if 0 ≤ q then ⌊q⌋ else ⌈q⌉ : ℤ)) : ℚ)| ≤ |v / g| + P.u * |v / g| + P.u by linarith [hdown.1, hab.1]) hg0.le
      linarith
    · rw [abs_mul, abs_of_pos hg0, e2]
      have := mul_lt_mul_of_pos_left (show |v / g| < |(((if 0 ≤ q then ⌊q⌋ else ⌈q⌉ : ℤ)) : ℚ)| + 1 + P.u * |v / g| + P.u by linarith [hdown.2.1, hab.2]) hg0
      linarith
  · refine ⟨_, ?_, hsign _ hup.2.2 ?_, ?_, ?_⟩
    · unfold snapUpG
      rw [if_pos hlt, div_fin _ _ hg0.ne', round_fl hq, d2]
      rfl
    · intro h0; rw [h0]; simp
    · rw [abs_mul, abs_of_pos hg0, e2]
      have := mul_le_mul_of_nonneg_left (show |v / g| ≤ |(((if 0 ≤ q then ⌈q⌉ else ⌊q⌋ : ℤ)) : ℚ)| + P.u * |v / g| + P.u by linarith [hup.1, hab.2]) hg0.le
      linarith
    · rw [abs_mul, abs_of_pos hg0, e2]
      have := mul_lt_mul_of_pos_left (show |(((if 0 ≤ q then ⌈q⌉ else ⌊q⌋ : ℤ)) : ℚ)| < |v / g| + 1 + P.u * |v / g| + P.u by linarith [hup.2.1, hab.1]) hg0
      linarith

/-- 3/4 on the grid 1/2. -/
example : binary64.p ≤ 62 ∧ ∃ v g : ℚ, binary64.fmt.rep v ∧ binary64.fmt.rep g ∧ 0 < g ∧ |v| ≤ g * 2 ^ (binary64.p - 3) ∧ v / g = 3 / 2 := by
  refine ⟨by norm_num [binary64], 3 / 4, 1 / 2, rep64 3 (-2) (by norm_num) (by norm_num) (by norm_num) (by rw [abs_of_pos (by norm_num)]; norm_num),
    rep64 1 (-1) (by norm_num) (by norm_num) (by norm_num) (by rw [abs_of_pos (by norm_num)]; norm_num), by norm_num, ?_, by norm_num⟩
  rw [abs_of_pos (by norm_num)]; norm_num [binary64]

theorem snapDown_eval {v g q s : ℚ} (n : ℤ) (hv : P.fmt.rep v) (hg : P.fmt.rep g) (hs : P.fmt.rep s) (hg0 : 0 < g)
    (e1 : P.fl (v / g) = q) (hq0 : 0 ≤ q) (hq1 : q < 2 ^ 63) (hq : P.fmt.rep q) (e2 : ⌊q⌋ = n) (e3 : P.fl (g * n) = s) :
    snapDownG (Flt.fin v hv) (Flt.fin g hg) = some (Flt.fin (F := P.fmt) s hs) := by
  have hlt : Cmp.lt (0 : Flt P.fmt) (Flt.fin g hg) = true := by rw [zero_fin, lt_fin]; simpa using hg0
  obtain ⟨-, -, -, ⟨k1, d1⟩, -⟩ := C84_exact P q hq (by linarith) hq1
  unfold snapDownG
  rw [if_pos hlt, div_fin _ _ hg0.ne', Flt.round_to hq e1, d1]
  simp only [if_pos hq0, e2] at k1 ⊢
  show some (Flt.round (g * n)) = _
  rw [Flt.round_to hs e3]

theorem snapUp_eval {v g q s : ℚ} (n : ℤ) (hv : P.fmt.rep v) (hg : P.fmt.rep g) (hs : P.fmt.rep s) (hg0 : 0 < g)
    (e1 : P.fl (v / g) = q) (hq0 : 0 ≤ q) (hq1 : q < 2 ^ 63) (hq : P.fmt.rep q) (e2 : ⌈q⌉ = n) (e3 : P.fl (g * n) = s) :
    snapUpG (Flt.fin v hv) (Flt.fin g hg) = some (Flt.fin (F := P.fmt) s hs) := by
  have hlt : Cmp.lt (0 : Flt P.fmt) (Flt.fin g hg) = true := by rw [zero_fin, lt_fin]; simpa using hg0
  obtain ⟨-, -, -, -, ⟨k1, d1⟩, -⟩ := C84_exact P q hq (by linarith) hq1
  unfold snapUpG
  rw [if_pos hlt, div_fin _ _ hg0.ne', Flt.round_to hq e1, d1]
  simp only [if_pos hq0, e2] at k1 ⊢
  show some (Flt.round (g * n)) = _
  rw [Flt.round_to hs e3]

theorem pos64 {q : ℚ} (m e : ℤ) (h1 : q = m * 2 ^ e) (h0 : 0 ≤ m) (h2 : m < 2 ^ 53) (h3 : -1074 ≤ e) (h4 : q ≤ 2 ^ 63) : binary64.fmt.rep q :=
  rep64 m e h1 (by rwa [abs_of_nonneg h0]) h3 (by
    have : 0 ≤ q := by rw [h1]; have := two_zpow_pos e; positivity
    rwa [abs_of_nonneg this])

/-- Rounding of a positive number to `double`. -/
theorem fl64 {q : ℚ} (k m : ℤ) (hk : -1074 ≤ k) (h1 : 2 ^ (k + 52) ≤ q) (h2 : q < 2 ^ (k + 53))
    (h3 : |q / 2 ^ k - m| ≤ 1 / 2) (h4 : |q / 2 ^ k - m| = 1 / 2 → m % 2 = 0) : binary64.fl q = m * 2 ^ k := by
  have hq : 0 < q := (two_zpow_pos _).trans_le h1
  rcases h3.lt_or_eq with h | h
  · refine fl_eval k m hk ?_ ?_ h
    · rw [abs_of_pos hq]; convert h1 using 2; show k + 53 - 1 = k + 52; ring
    · rw [abs_of_pos hq]; exact h2
  · refine fl_eval_even k m hk ?_ ?_ h3 (h4 h)
    · rw [abs_of_pos hq]; convert h1 using 2; show k + 53 - 1 = k + 52; ring
    · rw [abs_of_pos hq]; exact h2

/-- `snapUp` and `snapDown` are not idempotent: with the `double` values of 0.1 and 0.7, `snapUp(0.25, 0.1)` is 0.30000000000000004 and snapping
that again gives 0.4; `snapDown(2.25, 0.7)` is 2.0999999999999996 and snapping that again gives 1.4. -/
theorem C104_snap_down_up_twice_fails :
    (∃ (v g s t : ℚ) (hv : binary64.fmt.rep v) (hg : binary64.fmt.rep g) (hs : binary64.fmt.rep s) (ht : binary64.fmt.rep t),
      snapUpG (Flt.fin v hv) (Flt.fin g hg) = some (Flt.fin (F := binary64.fmt) s hs) ∧
      snapUpG (Flt.fin s hs) (Flt.fin g hg) = some (Flt.fin (F := binary64.fmt) t ht) ∧ t = 4 * g ∧ s < 7 / 2 * g) ∧
    (∃ (v g s t : ℚ) (hv : binary64.fmt.rep v) (hg : binary64.fmt.rep g) (hs : binary64.fmt.rep s) (ht : binary64.fmt.rep t),
      snapDownG (Flt.fin v hv) (Flt.fin g hg) = some (Flt.fin (F := binary64.fmt) s hs) ∧
      snapDownG (Flt.fin s hs) (Flt.fin g hg) = some (Flt.fin (F := binary64.fmt) t ht) ∧ t = 2 * g ∧ 5 / 2 * g < s) := by
  constructor
  · refine ⟨1 / 4, 7205759403792794 / 2 ^ 56, 5404319552844596 / 2 ^ 54, 7205759403792794 / 2 ^ 54,
      pos64 1 (-2) (by norm_num) (by norm_num) (by norm_num) (by norm_num) (by norm_num),
      pos64 7205759403792794 (-56) (by norm_num) (by norm_num) (by norm_num) (by norm_num) (by norm_num),
      pos64 5404319552844596 (-54) (by norm_num) (by norm_num) (by norm_num) (by norm_num) (by norm_num),
      pos64 7205759403792794 (-54) (by norm_num) (by norm_num) (by norm_num) (by norm_num) (by norm_num), ?_, ?_, by norm_num, by norm_num⟩
    · refine snapUp_eval (q := 5629499534213120 / 2 ^ 51) 3 _ _ _ (by norm_num) ?_ (by norm_num) (by norm_num)
        (pos64 5629499534213120 (-51) (by norm_num) (by norm_num) (by norm_num) (by norm_num) (by norm_num)) ?_ ?_
      · rw [fl64 (-51) 5629499534213120 (by norm_num) (by norm_num) (by norm_num) (by rw [abs_le]; norm_num) (by norm_num)]; norm_num
      · rw [Int.ceil_eq_iff]; norm_num
      · rw [fl64 (-54) 5404319552844596 (by norm_num) (by norm_num) (by norm_num) (by rw [abs_le]; norm_num) (by norm_num)]; norm_num
    · refine snapUp_eval (q := 6755399441055745 / 2 ^ 51) 4 _ _ _ (by norm_num) ?_ (by norm_num) (by norm_num)
        (pos64 6755399441055745 (-51) (by norm_num) (by norm_num) (by norm_num) (by norm_num) (by norm_num)) ?_ ?_
      · rw [fl64 (-51) 6755399441055745 (by norm_num) (by norm_num) (by norm_num) (by rw [abs_le]; norm_num) (by rw [abs_of_neg (by norm_num)]; norm_num)]; norm_num
      · rw [Int.ceil_eq_iff]; norm_num
      · rw [fl64 (-54) 7205759403792794 (by norm_num) (by norm_num) (by norm_num) (by rw [abs_le]; norm_num) (by norm_num)]; norm_num
  · refine ⟨9 / 4, 6305039478318694 / 2 ^ 53, 4728779608739020 / 2 ^ 51, 6305039478318694 / 2 ^ 52,
      pos64 9 (-2) (by norm_num) (by norm_num) (by norm_num) (by norm_num) (by norm_num),
      pos64 6305039478318694 (-53) (by norm_num) (by norm_num) (by norm_num) (by norm_num) (by norm_num),
      pos64 4728779608739020 (-51) (by norm_num) (by norm_num) (by norm_num) (by norm_num) (by norm_num),
      pos64 6305039478318694 (-52) (by norm_num) (by norm_num) (by norm_num) (by norm_num) (by norm_num), ?_, ?_, by norm_num, by norm_num⟩
    · refine snapDown_eval (q := 7237927972559726 / 2 ^ 51) 3 _ _ _ (by norm_num) ?_ (by norm_num) (by norm_num)
        (pos64 7237927972559726 (-51) (by norm_num) (by norm_num) (by norm_num) (by norm_num) (by norm_num)) ?_ ?_
      · rw [fl64 (-51) 7237927972559726 (by norm_num) (by norm_num) (by norm_num) (by rw [abs_le]; norm_num) (by norm_num)]; norm_num
      · rw [Int.floor_eq_iff]; norm_num
      · rw [fl64 (-51) 4728779608739020 (by norm_num) (by norm_num) (by norm_num) (by rw [abs_le]; norm_num) (by norm_num)]; norm_num
    · refine snapDown_eval (q := 6755399441055743 / 2 ^ 51) 2 _ _ _ (by norm_num) ?_ (by norm_num) (by norm_num)
        (pos64 6755399441055743 (-51) (by norm_num) (by norm_num) (by norm_num) (by norm_num) (by norm_num)) ?_ ?_
      · rw [fl64 (-51) 6755399441055743 (by norm_num) (by norm_num) (by norm_num) (by rw [abs_le]; norm_num) (by rw [abs_of_pos (by norm_num)]; norm_num)]; norm_num
      · rw [Int.floor_eq_iff]; norm_num
      · rw [fl64 (-52) 6305039478318694 (by norm_num) (by norm_num) (by norm_num) (by rw [abs_le]; norm_num) (by norm_num)]; norm_num

/-- `snapDown` may return a number that is greater than its argument. -/
theorem C104_snap_down_exceeds_fails :
    ∃ (v g s : ℚ) (hv : binary64.fmt.rep v) (hg : binary64.fmt.rep g) (hs : binary64.fmt.rep s), 0 < v ∧ v < s ∧
      snapDownG (Flt.fin v hv) (Flt.fin g hg) = some (Flt.fin (F := binary64.fmt) s hs) := by
  refine ⟨8659877688168787 / 2 ^ 51, 5773251792112525 / 2 ^ 52, 8659877688168788 / 2 ^ 51,
      pos64 8659877688168787 (-51) (by norm_num) (by norm_num) (by norm_num) (by norm_num) (by norm_num),
      pos64 5773251792112525 (-52) (by norm_num) (by norm_num) (by norm_num) (by norm_num) (by norm_num),
      pos64 8659877688168788 (-51) (by norm_num) (by norm_num) (by norm_num) (by norm_num) (by norm_num), by norm_num, by norm_num, ?_⟩
  refine snapDown_eval (q := 3) 3 _ _ _ (by norm_num) ?_ (by norm_num) (by norm_num)
    (pos64 3 0 (by norm_num) (by norm_num) (by norm_num) (by norm_num) (by norm_num)) ?_ ?_
  · rw [fl64 (-51) 6755399441055744 (by norm_num) (by norm_num) (by norm_num) (by rw [abs_le]; norm_num) (by norm_num)]; norm_num
  · rw [Int.floor_eq_iff]; norm_num
  · rw [fl64 (-51) 8659877688168788 (by norm_num) (by norm_num) (by norm_num) (by rw [abs_le]; norm_num) (by norm_num)]; norm_num

/-! ### C105 -/

/-- `correct` without decimals and with a tolerance of at most 1/4 returns exactly the integer that is closer than the tolerance if there is
one, and its argument otherwise. -/
theorem C105_correct (P : BinPar) (hp : P.p ≤ 62) (v e : ℚ) (hv : P.fmt.rep v) (he : P.fmt.rep e) (he1 : e ≤ 1 / 4) (h2 : |v| < 2 ^ 63) :
    (∀ n : ℤ, |v - n| < e → ∃ hn : P.fmt.rep (n : ℚ),
      correctG P.half (Flt.fin v hv) 0 (Flt.fin e he) = some (Flt.fin (F := P.fmt) (n : ℚ) hn)) ∧
    ((∀ n : ℤ, e ≤ |v - n|) → correctG P.half (Flt.fin v hv) 0 (Flt.fin e he) = some (Flt.fin (F := P.fmt) v hv)) := by
  have hp3 := P.hp
  obtain ⟨r, hr, hre, c1, c2, c3⟩ := C85_round_partial P hp v hv h2
  have heval : correctG P.half (Flt.fin v hv) 0 (Flt.fin e he) =
      some (if P.fl |v - r| < e then Flt.fin (F := P.fmt) (r : ℚ) hr else Flt.fin (F := P.fmt) v hv) := by
    have hm : (Int64Cast.ofInt64 (2 ^ 0) : Flt P.fmt) = 1 := by
      show (Flt.round (((2 ^ 0 : ℤ)) : ℚ) : Flt P.fmt) = 1
      have e : (((2 ^ 0 : ℤ)) : ℚ) = 1 := by norm_num
      rw [e, round_rep P.fmt.rep_one]; rfl
    unfold correctG
    rw [if_neg (by norm_num)]
    simp only [hm, Flt.mul_one', hre, Option.map_some, Flt.div_one']
    have e1 : (Flt.fin v hv - Flt.fin (r : ℚ) hr : Flt P.fmt) = Flt.round (v - r) := sub_fin _ _
    rw [e1, Flt.abs_round, Flt.round_lt (x := Flt.fin (F := P.fmt) e he) trivial]
    congr 1
    show (if decide (P.fl |v - r| < e) = true then _ else _) = _
    simp only [decide_eq_true_eq]
  constructor
  · intro n hn
    have hlt : |v - n| < 1 / 4 := hn.trans_le he1
    by_cases hi : v = n
    · subst hi
      refine ⟨hv, ?_⟩
      rw [heval]
      split_ifs with hc
      · -- the integer is rounded to itself or returned unchanged
        have hrn : |((n - r : ℤ) : ℚ)| < 1 := by
          by_contra hcc
          rw [not_lt] at hcc
          have h1 : P.fl 1 ≤ P.fl |(n : ℚ) - r| := P.fl_mono (by push_cast at hcc; exact hcc)
          rw [P.fl_rep P.rep_one] at h1
          linarith
        have h5 : |n - r| < 1 := by exact_mod_cast hrn
        have h6 : r = n := by have := Int.abs_lt_one_iff.1 h5; omega
        subst h6; rfl
      · rfl
    · have hni : ∀ m : ℤ, v = m → m % 2 = 1 → |v| < 2 ^ (P.p - 1) ∨ 2 ^ P.p ≤ |v| := by
        intro m hm _
        have : |((m - n : ℤ) : ℚ)| < 1 := by push_cast; rw [← hm]; linarith
        have h5 : |m - n| < 1 := by exact_mod_cast this
        have h6 : m = n := by have := Int.abs_lt_one_iff.1 h5; omega
        exact absurd (h6 ▸ hm) hi
      have hne : |v| ≠ 1 / 2 - 2 ^ (-(P.p : ℤ) - 1) := by
        intro hc
        have hpos := two_zpow_pos (-(P.p : ℤ) - 1)
        have hle : (2 : ℚ) ^ (-(P.p : ℤ) - 1) ≤ 2 ^ (-4 : ℤ) := zpow_le_zpow_right₀ (by norm_num) (by omega)
        norm_num at hle
        have h3 : |(n : ℚ)| < 1 := by
          have := abs_sub_abs_le_abs_sub (n : ℚ) v
          rw [abs_sub_comm] at this; linarith
        have h4 : |n| < 1 := by exact_mod_cast h3
        rw [Int.abs_lt_one_iff.1 h4] at hlt
        simp only [Int.cast_zero, sub_zero] at hlt
        linarith
      have h3 := (c1 hne hni).1
      have h4 : r = n := by
        have : |((n - r : ℤ) : ℚ)| < 1 := by
          push_cast
          have := abs_sub_le (n : ℚ) v r
          rw [abs_sub_comm (n : ℚ) v] at this; linarith
        have h5 : |n - r| < 1 := by exact_mod_cast this
        have := Int.abs_lt_one_iff.1 h5; omega
      subst h4
      refine ⟨hr, ?_⟩
      rw [heval, if_pos]
      have hrep : P.fmt.rep (v - r) := by
        by_cases h0 : r = 0
        · rw [h0]; simpa using hv
        · have h5 : (1 : ℚ) ≤ |(r : ℚ)| := by exact_mod_cast Int.one_le_abs h0
          have h6 := abs_sub_abs_le_abs_sub (r : ℚ) v
          rw [abs_sub_comm] at h6
          exact rep_sub_of_le hv hr (by linarith) (by linarith)
      have hrep2 : P.Rep |v - r| := by
        rcases abs_cases (v - r) with a | a <;> rw [a.1]
        · exact hrep.1
        · exact hrep.1.neg
      rw [P.fl_rep hrep2]; exact hn
  · intro h
    rw [heval, if_neg]
    rw [not_lt]
    exact P.le_fl_of_rep he.1 (h r)

/-- 2.125 with the tolerance 1/4 is corrected to 2, 2.5 is not changed. -/
example : binary64.p ≤ 62 ∧ binary64.fmt.rep (17 / 8) ∧ binary64.fmt.rep (1 / 4) ∧ |(17 / 8 : ℚ)| < 2 ^ 63 ∧ |(17 / 8 : ℚ) - (2 : ℤ)| < 1 / 4 := by
  refine ⟨by norm_num [binary64], pos64 17 (-3) (by norm_num) (by norm_num) (by norm_num) (by norm_num) (by norm_num),
    pos64 1 (-2) (by norm_num) (by norm_num) (by norm_num) (by norm_num) (by norm_num), ?_, ?_⟩
  · rw [abs_of_pos (by norm_num)]; norm_num
  · rw [abs_of_pos (by norm_num)]; norm_num

/-- A corrected value is not changed by correcting it again. -/
theorem C105_idempotent (P : BinPar) (hp : P.p ≤ 62) (v e : ℚ) (hv : P.fmt.rep v) (he : P.fmt.rep e) (he0 : 0 < e) (he1 : e ≤ 1 / 4)
    (h2 : |v| < 2 ^ 62) : ∃ s : Flt P.fmt, correctG P.half (Flt.fin v hv) 0 (Flt.fin e he) = some s ∧
      correctG P.half s 0 (Flt.fin e he) = some s ∧ s.isFinite ∧ |s.val - v| < e := by
  obtain ⟨h3, h4⟩ := C105_correct P hp v e hv he he1 (h2.trans (by norm_num))
  by_cases hc : ∃ n : ℤ, |v - n| < e
  · obtain ⟨n, hn⟩ := hc
    obtain ⟨hr, e1⟩ := h3 n hn
    refine ⟨_, e1, ?_, trivial, by rw [abs_sub_comm]; exact hn⟩
    have hb : |(n : ℚ)| < 2 ^ 63 := by
      have := abs_sub_abs_le_abs_sub (n : ℚ) v
      rw [abs_sub_comm] at this
      have h5 : (2 : ℚ) ^ 63 = 2 ^ 62 + 2 ^ 62 := by norm_num
      have h6 : (1 : ℚ) ≤ 2 ^ 62 := by norm_num
      linarith
    exact ((C105_correct P hp n e hr he he1 hb).1 n (by simpa using he0)).2
  · have h5 : ∀ n : ℤ, e ≤ |v - n| := fun n => by
      by_contra h; exact hc ⟨n, not_le.1 h⟩
    refine ⟨_, h4 h5, h4 h5, trivial, ?_⟩
    show |v - v| < e
    simpa using he0

example : ∃ v e : ℚ, binary64.fmt.rep v ∧ binary64.fmt.rep e ∧ 0 < e ∧ e ≤ 1 / 4 ∧ |v| < 2 ^ 62 ∧ v ≠ 0 :=
  ⟨17 / 8, 1 / 8, pos64 17 (-3) (by norm_num) (by norm_num) (by norm_num) (by norm_num) (by norm_num),
    pos64 1 (-3) (by norm_num) (by norm_num) (by norm_num) (by norm_num) (by norm_num), by norm_num, by norm_num,
    by rw [abs_of_pos (by norm_num)]; norm_num, by norm_num⟩

end vm
