import Verif.Lemmas.FltError

/-! # C86, C87, C88: remainders and angle normalisation in IEEE arithmetic -/

set_option linter.unusedSectionVars false
set_option linter.unusedSimpArgs false

namespace vm
open BinPar

theorem div_fin {P : BinPar} {a b : ℚ} (ha : P.fmt.rep a) (hb : P.fmt.rep b) (h : b ≠ 0) :
    (Flt.fin a ha / Flt.fin b hb : Flt P.fmt) = Flt.round (a / b) := by
  show (if b = 0 then Flt.infTimes a else Flt.round (a / b)) = _
  rw [if_neg h]

theorem mul_fin {P : BinPar} {a b : ℚ} (ha : P.fmt.rep a) (hb : P.fmt.rep b) :
    (Flt.fin a ha * Flt.fin b hb : Flt P.fmt) = Flt.round (a * b) := rfl

/-- What the conversion of a finite float to an integer and back does. -/
theorem truncG_int {P : BinPar} {v : ℚ} (hv : P.fmt.rep v) {n : ℤ} (hn : P.fmt.rep (n : ℚ))
    (h1 : 0 ≤ (n : ℚ) * v) (h2 : |(n : ℚ)| ≤ |v|) (h3 : |v| < |(n : ℚ)| + 1) (h4 : |v| < 2 ^ 63) :
    truncG (Flt.fin v hv : Flt P.fmt) = some (Flt.fin (F := P.fmt) (n : ℚ) hn) := by
  rw [truncG_fin hv ⟨by have := neg_abs_le v; linarith, lt_of_le_of_lt (le_abs_self v) h4⟩]
  congr 1
  split_ifs with h
  · refine fin_congr _ ?_
    congr 1
    rw [abs_of_neg h] at h2 h3
    have hn0 : (n : ℚ) ≤ 0 := by
      by_contra hc
      have := mul_neg_of_pos_of_neg (not_le.1 hc) h
      linarith
    rw [abs_of_nonpos hn0] at h2 h3
    rw [Int.ceil_eq_iff]; constructor <;> linarith
  · refine fin_congr _ ?_
    congr 1
    rw [not_lt] at h
    rw [abs_of_nonneg h] at h2 h3
    have hn0 : (0 : ℚ) ≤ n := by
      rcases h.eq_or_lt with h5 | h5
      · rw [← h5] at h2
        exact le_of_eq (abs_eq_zero.1 (le_antisymm h2 (abs_nonneg _))).symm
      · exact nonneg_of_mul_nonneg_left h1 h5
    rw [abs_of_nonneg hn0] at h2 h3
    rw [Int.floor_eq_iff]; constructor <;> linarith

/-! ### C86: the remainder is exact if the multiples of the divisor around the argument are numbers of the format -/

/-- `|x|` lies between the multiples `n` and `n + 1` of `|y|`, both of which are numbers of the format. -/
theorem C86_mod_exact (P : BinPar) (x y : ℚ) (hx : P.fmt.rep x) (hy : P.fmt.rep y) (hy0 : y ≠ 0) (n : ℕ)
    (h1 : |y| * n ≤ |x|) (h2 : |x| < |y| * (n + 1)) (hp : (n : ℤ) + 1 ≤ 2 ^ P.p) (h63 : (n : ℤ) + 1 ≤ 2 ^ 63)
    (hn : P.fmt.rep (|y| * n)) (hn1 : P.Rep (|y| * (n + 1))) :
    ∃ (r : ℚ) (h : P.fmt.rep r), modG (Flt.fin x hx : Flt P.fmt) (Flt.fin y hy) = some (Flt.fin (F := P.fmt) r h) ∧
      |r| < |y| ∧ 0 ≤ r * x ∧ ∃ k : ℤ, x = y * k + r := by
  have hya : 0 < |y| := abs_pos.2 hy0
  have hpq : ((n : ℚ) + 1) ≤ 2 ^ P.p := by exact_mod_cast hp
  have h63q : ((n : ℚ) + 1) ≤ 2 ^ 63 := by exact_mod_cast h63
  have hxa : P.Rep |x| := by
    rcases abs_cases x with h | h <;> rw [h.1]
    · exact hx.1
    · exact hx.1.neg
  -- the rounded quotient lies between n and n + 1
  have q1 : (n : ℚ) ≤ P.fl (|x| / |y|) := by
    have hr : P.Rep ((n : ℤ) : ℚ) := P.rep_int (by rw [abs_of_nonneg (by positivity)]; omega)
    exact P.le_fl_of_rep (by exact_mod_cast hr) (by rw [le_div_iff₀ hya]; linarith)
  have q2 : P.fl (|x| / |y|) < n + 1 := by
    have hr : P.Rep (((n : ℤ) + 1 : ℤ) : ℚ) := P.rep_int (by rw [abs_of_nonneg (by positivity)]; exact hp)
    exact fl_div_lt hxa hya (by exact_mod_cast hr) (by linarith [(Nat.cast_nonneg n : (0 : ℚ) ≤ n)]) hn1 h2
  have habs : |P.fl (x / y)| = P.fl (|x| / |y|) := by
    rw [← abs_div]
    rcases abs_cases (x / y) with h | h
    · rw [h.1, abs_of_nonneg (P.fl_nonneg h.2)]
    · rw [h.1, P.fl_neg, abs_of_nonpos]
      have := P.fl_nonneg (q := -(x / y)) (by linarith)
      rw [P.fl_neg] at this; linarith
  have hb : |P.fl (x / y)| < P.bound := by
    rw [habs]
    have h3 := P.int_bound (n := (n : ℤ) + 1) (by rw [abs_of_nonneg (by positivity)]; exact hp)
    push_cast at h3
    rw [abs_of_nonneg (by positivity)] at h3
    linarith
  -- the integral quotient
  obtain ⟨k, hk1, hk2, hk3⟩ : ∃ k : ℤ, |(k : ℚ)| = n ∧ 0 ≤ (k : ℚ) * (x / y) ∧ (x / y = 0 → k = 0) := by
    rcases le_or_gt 0 (x / y) with h | h
    · refine ⟨n, by simp, by push_cast; positivity, fun h0 => ?_⟩
      have : x = 0 := by
        rcases div_eq_zero_iff.1 h0 with h | h
        · exact h
        · exact absurd h hy0
      rw [this, abs_zero] at h1
      have : (n : ℚ) = 0 := by
        by_contra hc
        have : (0 : ℚ) < n := lt_of_le_of_ne (Nat.cast_nonneg n) (Ne.symm hc)
        nlinarith
      exact_mod_cast this
    · refine ⟨-n, by simp, ?_, fun h0 => absurd h0 h.ne⟩
      push_cast
      nlinarith [(Nat.cast_nonneg n : (0 : ℚ) ≤ n)]
  have hkr : P.fmt.rep (k : ℚ) := P.rep_of_int (by
    have : |k| = n := by exact_mod_cast hk1
    rw [this]; omega)
  have ht : truncG (Flt.fin (F := P.fmt) (P.fl (x / y)) (rep_of_fl hb) : Flt P.fmt) = some (Flt.fin (F := P.fmt) (k : ℚ) hkr) := by
    refine truncG_int _ hkr ?_ (by rw [hk1, habs]; exact q1) (by rw [hk1, habs]; exact q2) (by rw [habs]; linarith)
    rcases lt_trichotomy (x / y) 0 with h | h | h
    · have h3 : P.fl (x / y) ≤ 0 := by
        have := P.fl_nonneg (q := -(x / y)) (by linarith)
        rw [P.fl_neg] at this; linarith
      have h4 : (k : ℚ) ≤ 0 := by
        by_contra hc
        have := mul_neg_of_pos_of_neg (not_le.1 hc) h
        linarith
      nlinarith
    · rw [hk3 h]; simp
    · have h3 := P.fl_nonneg h.le
      have h4 : (0 : ℚ) ≤ k := nonneg_of_mul_nonneg_left hk2 h
      positivity
  have hyk : |y * k| = |y| * n := by rw [abs_mul, hk1]
  have hrepyk : P.fmt.rep (y * k) := by
    rcases abs_cases (y * k) with h | h
    · rw [← h.1, hyk]; exact hn
    · have : y * k = -(|y| * n) := by rw [← hyk, h.1]; ring
      rw [this]; exact P.fmt.rep_neg hn
  -- the sign of the product is that of x
  have hsgn : 0 ≤ (y * k) * x := by
    have : (y * k) * x = y ^ 2 * (k * (x / y)) := by field_simp
    rw [this]; positivity
  have hdiff : |x - y * k| = |x| - |y| * n ∧ 0 ≤ (x - y * k) * x := by
    rw [← hyk] at h1 ⊢
    rcases lt_trichotomy x 0 with h | h | h
    · have h3 : y * k ≤ 0 := by
        by_contra hc
        have := mul_neg_of_pos_of_neg (not_le.1 hc) h
        linarith
      rw [abs_of_neg h, abs_of_nonpos h3] at h1 ⊢
      refine ⟨by rw [abs_of_nonpos (by linarith)]; ring, by nlinarith⟩
    · subst h
      have h3 : y * k = 0 := abs_eq_zero.1 (le_antisymm (by simpa using h1) (abs_nonneg _))
      rw [h3]; simp
    · have h3 : 0 ≤ y * k := nonneg_of_mul_nonneg_left hsgn h
      rw [abs_of_pos h, abs_of_nonneg h3] at h1 ⊢
      refine ⟨by rw [abs_of_nonneg (by linarith)], by nlinarith⟩
  have hrep : P.fmt.rep (x - y * k) := by
    rcases Nat.eq_zero_or_pos n with h | h
    · have : (k : ℚ) = 0 := abs_eq_zero.1 (by rw [hk1, h]; simp)
      rw [this]; simpa using hx
    · have h3 : (1 : ℚ) ≤ n := by exact_mod_cast h
      refine rep_sub_of_le hx hrepyk ?_ ?_
      · rw [hdiff.1]; have : 0 ≤ |y| * n := by positivity
        linarith
      · rw [hdiff.1, hyk]
        nlinarith
  refine ⟨x - y * k, hrep, ?_, by rw [hdiff.1]; linarith, hdiff.2, k, by ring⟩
  unfold modG
  rw [div_fin hx hy hy0, round_fl (rep_of_fl hb), ht, Option.map_some, mul_fin, round_rep hrepyk, sub_fin, round_rep hrep]

/-- `mod(-7.5, 2)`: the multiples 3 and 4 of 2 surround 7.5. -/
example : binary32.fmt.rep (-15 / 2) ∧ binary32.fmt.rep 2 ∧ |(2 : ℚ)| * (3 : ℕ) ≤ |(-15 / 2 : ℚ)| ∧
    |(-15 / 2 : ℚ)| < |(2 : ℚ)| * ((3 : ℕ) + 1) ∧ binary32.fmt.rep (|(2 : ℚ)| * (3 : ℕ)) ∧ binary32.Rep (|(2 : ℚ)| * ((3 : ℕ) + 1)) := by
  have hb : ∀ n : ℤ, |n| ≤ 2 ^ 24 → binary32.fmt.rep n := fun n hn => binary32.rep_of_int hn
  have e : |(-15 / 2 : ℚ)| = 15 / 2 := by rw [abs_of_neg (by norm_num)]; norm_num
  have e2 : |(2 : ℚ)| = 2 := abs_of_pos (by norm_num)
  have h15 := hb 15 (by norm_num)
  refine ⟨⟨⟨-15, -1, by norm_num, by norm_num [binary32], by norm_num [binary32]⟩, ?_⟩, by exact_mod_cast hb 2 (by norm_num), ?_, ?_, ?_, ?_⟩
  · rw [e]
    have := h15.2
    push_cast at this
    rw [abs_of_pos (by norm_num)] at this
    linarith
  · rw [e, e2]; norm_num
  · rw [e, e2]; norm_num
  · rw [e2]; have := hb 6 (by norm_num); norm_num at this ⊢; exact this
  · rw [e2]; have := (hb 8 (by norm_num)).1; norm_num at this ⊢; exact this

/-! ### C87: normalising an angle in degrees -/

namespace BinPar
variable {P : BinPar}

theorem deg_bound (hq : 4 ≤ P.qmax) : 8 * 2 ^ P.p < P.bound := by
  unfold bound
  rw [zpow_add2, zpow_natCast]
  have h1 : (2 : ℚ) ^ (4 : ℤ) ≤ 2 ^ P.qmax := zpow_le_zpow_right₀ (by norm_num) hq
  have h2 : (0 : ℚ) < 2 ^ P.p := by positivity
  norm_num at h1
  nlinarith

theorem rep_deg (hq : 4 ≤ P.qmax) (n : ℕ) (h : 45 * n ≤ 2 ^ P.p) : P.fmt.rep (360 * n) := by
  have hmin := P.hmin
  have hqq : (45 * n : ℚ) ≤ 2 ^ P.p := by exact_mod_cast h
  refine ⟨P.rep_multiple (e := 3) (by omega) ?_ (m := 45 * n) (by push_cast; ring), ?_⟩
  · rw [abs_of_nonneg (by positivity), zpow_add2, zpow_natCast]; norm_num; linarith
  · rw [abs_of_nonneg (by positivity)]
    have := deg_bound hq
    linarith

theorem rep_360 (hp : 6 ≤ P.p) (hq : 4 ≤ P.qmax) : P.fmt.rep 360 := by
  have := rep_deg hq 1 (by
    have : 2 ^ 6 ≤ 2 ^ P.p := Nat.pow_le_pow_right (by norm_num) hp
    omega)
  simpa using this

theorem mod_deg (hp : 6 ≤ P.p) (hp2 : P.p ≤ 62) (hq : 4 ≤ P.qmax) {a : ℚ} (ha : P.fmt.rep a) (h0 : 0 ≤ a)
    (hb : a ≤ 8 * 2 ^ P.p - 360) :
    ∃ (r : ℚ) (h : P.fmt.rep r), modG (Flt.fin a ha : Flt P.fmt) (Flt.fin (F := P.fmt) 360 (rep_360 hp hq)) =
      some (Flt.fin (F := P.fmt) r h) ∧ 0 ≤ r ∧ r < 360 ∧ ∃ k : ℤ, a = 360 * k + r := by
  have e : |(360 : ℚ)| = 360 := abs_of_pos (by norm_num)
  have f1 := Nat.floor_le (show 0 ≤ a / 360 by positivity)
  have f2 := Nat.lt_floor_add_one (a / 360)
  set n := ⌊a / 360⌋₊ with hn
  clear_value n
  have g1 : 360 * (n : ℚ) ≤ a := by rw [le_div_iff₀ (by norm_num)] at f1; linarith
  have g2 : a < 360 * ((n : ℚ) + 1) := by rw [div_lt_iff₀ (by norm_num)] at f2; linarith
  have g3 : 45 * (n + 1) ≤ 2 ^ P.p := by
    have : (45 : ℚ) * (n + 1) ≤ 2 ^ P.p := by linarith
    exact_mod_cast this
  have g4 : (2 : ℕ) ^ P.p ≤ 2 ^ 62 := Nat.pow_le_pow_right (by norm_num) hp2
  have g5 : (n : ℤ) + 1 ≤ 2 ^ P.p := by
    have : n + 1 ≤ 2 ^ P.p := by omega
    exact_mod_cast this
  have g6 : (n : ℤ) + 1 ≤ 2 ^ 63 := by norm_num at g4 ⊢; omega
  have g7 := (rep_deg hq (n + 1) g3).1
  push_cast at g7
  obtain ⟨r, h, h1, h2, h3, k, h4⟩ := C86_mod_exact P a 360 ha (rep_360 hp hq) (by norm_num) n
    (by rw [e, abs_of_nonneg h0]; exact g1) (by rw [e, abs_of_nonneg h0]; exact g2) g5 g6
    (by rw [e]; exact rep_deg hq n (by omega)) (by rw [e]; exact g7)
  rw [e, abs_lt] at h2
  refine ⟨r, h, h1, ?_, h2.2, k, h4⟩
  rcases h0.eq_or_lt with h5 | h5
  · have h6 : (k : ℚ) = -r / 360 := by linarith
    have h7 : (-1 : ℚ) < k ∧ (k : ℚ) < 1 := by constructor <;> rw [h6] <;> linarith
    have h8 : (-1 : ℤ) < k ∧ k < 1 := by exact_mod_cast h7
    have : k = 0 := by omega
    rw [this] at h4; push_cast at h4; linarith
  · exact nonneg_of_mul_nonneg_left h3 h5

/-- The loop that adds full turns is exact up to the last addition. -/
theorem loop_deg (hp : 6 ≤ P.p) (hq : 4 ≤ P.qmax) (N : ℕ) : ∀ (a : ℚ) (ha : P.fmt.rep a), a < 0 → -(360 * N) ≤ a →
    -(8 * 2 ^ P.p) ≤ a →
    ∃ (b : ℚ) (hb : P.fmt.rep b), (∀ fuel, N ≤ fuel → addUntilNonneg (Flt.fin (F := P.fmt) 360 (rep_360 hp hq)) fuel
      (Flt.fin a ha) = some (Flt.fin (F := P.fmt) b hb)) ∧ ∃ (k : ℤ) (t : ℚ), a = 360 * k + t ∧ 0 ≤ t ∧ t < 360 ∧ b = P.fl t := by
  induction N with
  | zero => intro a ha h0 h1; exfalso; simp at h1; linarith
  | succ N ih =>
    intro a ha h0 h1 h2
    have h360 := rep_360 hp hq
    have hlt : Cmp.lt (Flt.fin a ha : Flt P.fmt) 0 = true := by
      rw [zero_fin, lt_fin]; simpa using h0
    rcases le_or_gt (-360) a with h3 | h3
    · have h4 : P.fl (a + 360) ≤ 360 := P.fl_le_of_rep h360.1 (by linarith)
      have h5 : 0 ≤ P.fl (a + 360) := P.fl_nonneg (by linarith)
      have h6 : P.fmt.rep (P.fl (a + 360)) := rep_of_fl (by
        rw [abs_of_nonneg h5]
        have := h360.2
        rw [abs_of_pos (by norm_num)] at this; linarith)
      refine ⟨P.fl (a + 360), h6, ?_, -1, a + 360, by push_cast; ring, by linarith, by linarith, rfl⟩
      intro fuel hf
      obtain ⟨m, rfl⟩ : ∃ m, fuel = m + 1 := ⟨fuel - 1, by omega⟩
      rw [addUntilNonneg, if_pos hlt, add_fin, round_fl h6]
      have : Cmp.lt (Flt.fin (F := P.fmt) _ h6 : Flt P.fmt) 0 = false := by
        rw [zero_fin, lt_fin]; simpa using h5
      cases m <;> simp only [addUntilNonneg, this, Bool.false_eq_true, if_false]
    · have hr : P.fmt.rep (a + 360) := by
        have habs : |a + 360| ≤ |a| := by
          rw [abs_of_neg (by linarith), abs_of_neg h0]; linarith
        refine ⟨?_, lt_of_le_of_lt habs ha.2⟩
        obtain ⟨m, e, h4, h5, h6⟩ := ha.1
        have hmin := P.hmin
        rcases le_total e 3 with h7 | h7
        · refine P.rep_multiple h6 (habs.trans ?_) (m := m + 45 * 2 ^ (3 - e).toNat) ?_
          · rw [h4, abs_mul, abs_of_pos (two_zpow_pos e), zpow_add2, mul_comm, zpow_natCast]
            have : |(m : ℚ)| ≤ 2 ^ P.p := by exact_mod_cast h5.le
            exact mul_le_mul_of_nonneg_left this (two_zpow_pos e).le
          · have := zpow_eq_int_mul h7
            push_cast at this ⊢
            rw [h4]
            linarith
        · refine P.rep_multiple (e := 3) (by omega) (habs.trans ?_) (m := m * 2 ^ (e - 3).toNat + 45) ?_
          · rw [abs_of_neg h0, zpow_add2, zpow_natCast]; norm_num; linarith
          · rw [h4, zpow_eq_int_mul h7]; push_cast; ring
      obtain ⟨b, hb, hl, k, t, h4, h5, h6, h7⟩ := ih (a + 360) hr (by linarith) (by push_cast at h1; linarith) (by linarith)
      refine ⟨b, hb, ?_, k - 1, t, by push_cast; linarith, h5, h6, h7⟩
      intro fuel hf
      obtain ⟨m, rfl⟩ : ∃ m, fuel = m + 1 := ⟨fuel - 1, by omega⟩
      rw [addUntilNonneg, if_pos hlt, add_fin, round_rep hr]
      exact hl m (by omega)

end BinPar

/-- Angles up to `8 * 2^p` degrees in magnitude (about 7e16 for `double`): the result lies in [0, 360); it is exact for an angle
that is not negative, and otherwise the exact residue rounded once (0 if the rounded residue is a full turn). -/
theorem C87_normalize_degrees (P : BinPar) (hp : 7 ≤ P.p) (hp2 : P.p ≤ 62) (hq : 4 ≤ P.qmax) (a : ℚ) (ha : P.fmt.rep a)
    (hb : |a| ≤ 8 * 2 ^ P.p - 360) :
    ∃ (r : ℚ) (h : P.fmt.rep r) (fuel₀ : ℕ), (∀ fuel, fuel₀ ≤ fuel →
        normalizeAngleG (Flt.fin (F := P.fmt) 360 (rep_360 (by omega) hq)) fuel (Flt.fin a ha) = some (Flt.fin (F := P.fmt) r h)) ∧
      0 ≤ r ∧ r < 360 ∧
      ∃ (k : ℤ) (t : ℚ), a = 360 * k + t ∧ 0 ≤ t ∧ t < 360 ∧ (0 ≤ a → r = t) ∧ (r = P.fl t ∨ (r = 0 ∧ P.fl t = 360)) := by
  have h360 := rep_360 (by omega : 6 ≤ P.p) hq
  rw [abs_le] at hb
  rcases le_or_gt 0 a with h0 | h0
  · obtain ⟨r, h, h1, h2, h3, k, h4⟩ := mod_deg (by omega : 6 ≤ P.p) hp2 hq ha h0 hb.2
    refine ⟨r, h, 0, fun fuel _ => ?_, h2, h3, k, r, h4, h2, h3, fun _ => rfl, Or.inl (P.fl_rep h.1).symm⟩
    have : Cmp.lt (Flt.fin a ha : Flt P.fmt) 0 = false := by rw [zero_fin, lt_fin]; simpa using h0
    unfold normalizeAngleG
    cases fuel <;> simp only [addUntilNonneg, this, Bool.false_eq_true, if_false, Option.bind_some, h1]
  · obtain ⟨N, hN⟩ := exists_nat_ge (-a / 360)
    rw [div_le_iff₀ (by norm_num)] at hN
    obtain ⟨b, hbr, hl, k, t, h1, h2, h3, h4⟩ := loop_deg (by omega : 6 ≤ P.p) hq N a ha h0 (by linarith) (by linarith)
    have hb0 : 0 ≤ b := by rw [h4]; exact P.fl_nonneg h2
    have hb1 : b ≤ 360 := by rw [h4]; exact P.fl_le_of_rep h360.1 h3.le
    have hpw : (2 : ℚ) ^ 7 ≤ 2 ^ P.p := pow_le_pow_right₀ (by norm_num) hp
    norm_num at hpw
    obtain ⟨r, h, h5, h6, h7, k', h8⟩ := mod_deg (by omega : 6 ≤ P.p) hp2 hq hbr hb0 (by linarith)
    refine ⟨r, h, N, fun fuel hf => ?_, h6, h7, k, t, h1, h2, h3, fun h => absurd h (not_le.2 h0), ?_⟩
    · unfold normalizeAngleG
      rw [hl fuel hf, Option.bind_some, h5]
    · have h9 : (-1 : ℚ) < k' ∧ (k' : ℚ) < 2 := by constructor <;> linarith
      have h10 : (-1 : ℤ) < k' ∧ k' < 2 := by exact_mod_cast h9
      obtain h11 | h11 : k' = 0 ∨ k' = 1 := by omega
      · left; rw [h11] at h8; push_cast at h8; linarith
      · right; rw [h11] at h8; push_cast at h8
        constructor <;> linarith

/-- The formats `float` and `double` qualify, with -725.5 degrees as the angle. -/
example : 7 ≤ binary64.p ∧ binary64.p ≤ 62 ∧ 4 ≤ binary64.qmax ∧ 7 ≤ binary32.p ∧ binary32.p ≤ 62 ∧ 4 ≤ binary32.qmax ∧
    binary32.fmt.rep (-1451 / 2) ∧ |(-1451 / 2 : ℚ)| ≤ 8 * 2 ^ binary32.p - 360 := by
  have h := binary32.rep_of_int (n := 1451) (by norm_num [binary32])
  refine ⟨by norm_num [binary64], by norm_num [binary64], by norm_num [binary64], by norm_num [binary32],
    by norm_num [binary32], by norm_num [binary32],
    ⟨⟨-1451, -1, by norm_num, by norm_num [binary32], by norm_num [binary32]⟩, ?_⟩, ?_⟩
  · have h2 := h.2
    push_cast at h2
    rw [abs_of_pos (by norm_num)] at h2
    rw [abs_of_neg (by norm_num)]; linarith
  · rw [abs_of_neg (by norm_num)]; norm_num [binary32]

/-! ### C88: normalising an angle in radians -/

theorem rep64 {q : ℚ} (m e : ℤ) (h1 : q = m * 2 ^ e) (h2 : |m| < 2 ^ 53) (h3 : -1074 ≤ e) (h4 : |q| ≤ 2 ^ 63) : binary64.fmt.rep q := by
  refine ⟨⟨m, e, h1, h2, h3⟩, lt_of_le_of_lt h4 ?_⟩
  unfold BinPar.bound binary64
  rw [← zpow_natCast]
  exact zpow_lt_zpow_right₀ (by norm_num) (by norm_num)

theorem twoPi64_eq : ∃ h, twoPi64 = Flt.fin (F := binary64.fmt) (884279719003555 / 2 ^ 47) h := by
  have hpi : binary64.fl (3141592653589793 / 10 ^ 15) = (7074237752028440 : ℤ) * 2 ^ (-51 : ℤ) := by
    refine fl_eval (-51) 7074237752028440 ?_ ?_ ?_ ?_
    · norm_num [binary64]
    · rw [abs_of_pos (by norm_num)]; norm_num [binary64]
    · rw [abs_of_pos (by norm_num)]; norm_num [binary64]
    · rw [abs_lt]; norm_num
  have hr : binary64.fmt.rep (binary64.fl (3141592653589793 / 10 ^ 15)) := by
    rw [hpi]
    refine rep64 _ _ rfl (by norm_num) (by norm_num) ?_
    rw [abs_of_pos (by norm_num)]; norm_num
  have h2 : binary64.fmt.rep 2 := by
    have := binary64.rep_of_int (n := 2) (by norm_num [binary64])
    exact_mod_cast this
  have h3 : binary64.fmt.rep (884279719003555 / 2 ^ 47) :=
    rep64 884279719003555 (-47) (by norm_num) (by norm_num) (by norm_num) (by rw [abs_of_pos (by norm_num)]; norm_num)
  refine ⟨h3, ?_⟩
  unfold twoPi64
  rw [round_rep h2, round_fl hr, mul_fin]
  have e : (2 : ℚ) * binary64.fl (3141592653589793 / 10 ^ 15) = 884279719003555 / 2 ^ 47 := by rw [hpi]; norm_num
  rw [e, round_rep h3]

/-- The `double` 106.81415022205296, slightly less than 17 full turns, is normalised to about -1.42e-14. -/
theorem C88_radians_fails :
    ∃ (ha : binary64.fmt.rep (7516377611530217 / 2 ^ 46)) (r : ℚ) (hr : binary64.fmt.rep r),
      (∀ fuel, normalizeAngleG twoPi64 fuel (Flt.fin _ ha) = some (Flt.fin (F := binary64.fmt) r hr)) ∧ r < 0 := by
  obtain ⟨hpi, epi⟩ := twoPi64_eq
  have ha : binary64.fmt.rep (7516377611530217 / 2 ^ 46) :=
    rep64 7516377611530217 (-46) (by norm_num) (by norm_num) (by norm_num) (by rw [abs_of_pos (by norm_num)]; norm_num)
  have hr : binary64.fmt.rep (-1 / 2 ^ 46) :=
    rep64 (-1) (-46) (by norm_num) (by norm_num) (by norm_num) (by rw [abs_of_neg (by norm_num)]; norm_num)
  refine ⟨ha, -1 / 2 ^ 46, hr, fun fuel => ?_, by norm_num⟩
  have h17 : binary64.fmt.rep ((17 : ℤ) : ℚ) := binary64.rep_of_int (n := 17) (by norm_num [binary64])
  have hlt : Cmp.lt (Flt.fin _ ha : Flt binary64.fmt) 0 = false := by rw [zero_fin, lt_fin]; norm_num
  have hq : binary64.fl (7516377611530217 / 2 ^ 46 / (884279719003555 / 2 ^ 47)) = 17 := by
    have := fl_eval (P := binary64) (q := 7516377611530217 / 2 ^ 46 / (884279719003555 / 2 ^ 47)) (-48) (17 * 2 ^ 48)
      (by norm_num [binary64]) (by rw [abs_of_pos (by norm_num)]; norm_num [binary64])
      (by rw [abs_of_pos (by norm_num)]; norm_num [binary64]) (by rw [abs_lt]; norm_num)
    rw [this]; norm_num
  have hqr : binary64.fmt.rep (binary64.fl (7516377611530217 / 2 ^ 46 / (884279719003555 / 2 ^ 47))) := by
    rw [hq]; exact_mod_cast h17
  have hm : binary64.fl (884279719003555 / 2 ^ 47 * (17 : ℤ)) = 3758188805765109 / 2 ^ 45 := by
    have := fl_eval_even (P := binary64) (q := 884279719003555 / 2 ^ 47 * (17 : ℤ)) (-46) 7516377611530218
      (by norm_num [binary64]) (by rw [abs_of_pos (by norm_num)]; norm_num [binary64])
      (by rw [abs_of_pos (by norm_num)]; norm_num [binary64]) (by rw [abs_le]; norm_num) (by norm_num)
    rw [this]; norm_num
  have hmr : binary64.fmt.rep (binary64.fl (884279719003555 / 2 ^ 47 * (17 : ℤ))) := by
    rw [hm]
    exact rep64 3758188805765109 (-45) (by norm_num) (by norm_num) (by norm_num) (by rw [abs_of_pos (by norm_num)]; norm_num)
  have hmod : modG (Flt.fin _ ha : Flt binary64.fmt) (Flt.fin (F := binary64.fmt) _ hpi) = some (Flt.fin (F := binary64.fmt) _ hr) := by
    unfold modG
    rw [div_fin _ _ (by norm_num), round_fl hqr, truncG_int hqr h17 (by rw [hq]; norm_num) (by rw [hq]; norm_num)
      (by rw [hq]; norm_num) (by rw [hq]; norm_num), Option.map_some, mul_fin, round_fl hmr, sub_fin, hm]
    have e : (7516377611530217 / 2 ^ 46 - 3758188805765109 / 2 ^ 45 : ℚ) = -1 / 2 ^ 46 := by norm_num
    rw [e, round_rep hr]
  unfold normalizeAngleG
  rw [epi]
  cases fuel <;> simp only [addUntilNonneg, hlt, Bool.false_eq_true, if_false, Option.bind_some, hmod]

/-- What does hold: the result is the remainder up to a small multiple of the unit roundoff `2^-p`, so that it may leave the
interval [0, y) only by such an amount. -/
theorem C88_mod_error_partial (P : BinPar) (x y : ℚ) (hx : P.fmt.rep x) (hy : P.fmt.rep y) (hy1 : 1 ≤ y) (hx0 : 0 ≤ x)
    (h1 : x ≤ y * 2 ^ P.p) (h2 : x ≤ y * 2 ^ 62) (hb : 4 * (x + y) < P.bound) :
    ∃ (r : ℚ) (h : P.fmt.rep r), modG (Flt.fin x hx : Flt P.fmt) (Flt.fin y hy) = some (Flt.fin (F := P.fmt) r h) ∧
      -(4 * 2 ^ (-(P.p : ℤ)) * x) ≤ r ∧ r ≤ y + 4 * 2 ^ (-(P.p : ℤ)) * (x + y) ∧
      ∃ n : ℕ, |r - (x - y * n)| ≤ 2 * 2 ^ (-(P.p : ℤ)) * (x + y) := by
  have hp := P.hp
  have hmin := P.hmin
  have hyp : 0 < y := by linarith
  have hu := two_zpow_pos (-(P.p : ℤ))
  have hu8 : (2 : ℚ) ^ (-(P.p : ℤ)) ≤ 1 / 8 := by
    have : (2 : ℚ) ^ (-(P.p : ℤ)) ≤ 2 ^ (-3 : ℤ) := zpow_le_zpow_right₀ (by norm_num) (by omega)
    norm_num at this ⊢; exact this
  have hnorm : ∀ q : ℚ, 1 / 2 ≤ |q| → |P.fl q - q| ≤ 2 ^ (-(P.p : ℤ)) * |q| := by
    intro q hq
    refine fl_err_rel (le_trans ?_ hq)
    have : (2 : ℚ) ^ (P.qmin + P.p - 1) ≤ 2 ^ (-1 : ℤ) := zpow_le_zpow_right₀ (by norm_num) (by omega)
    norm_num at this ⊢; exact this
  generalize hue : (2 : ℚ) ^ (-(P.p : ℤ)) = u at *
  set c := P.fl (x / y) with hc
  have hc0 : 0 ≤ c := P.fl_nonneg (by positivity)
  have hcp : c ≤ 2 ^ P.p := by
    have hr : P.Rep (((2 ^ P.p : ℤ)) : ℚ) := P.rep_int (by rw [abs_of_nonneg (by positivity)])
    push_cast at hr
    exact P.fl_le_of_rep hr (by rw [div_le_iff₀ hyp]; linarith)
  have hc62 : c ≤ 2 ^ 62 := by
    have hr : P.Rep (2 ^ 62) := ⟨1, 62, by norm_num, by
      rw [abs_one]; exact one_lt_pow₀ (by norm_num) (by omega), by omega⟩
    exact P.fl_le_of_rep hr (by rw [div_le_iff₀ hyp]; linarith)
  have hcb : |c| < P.bound := by
    rw [abs_of_nonneg hc0]
    have h3 := P.int_bound (n := 2 ^ P.p) (by rw [abs_of_nonneg (by positivity)])
    push_cast at h3
    rw [abs_of_nonneg (by positivity)] at h3
    linarith
  have hcr : P.fmt.rep (P.fl (x / y)) := rep_of_fl hcb
  have f1 := Nat.floor_le hc0
  have f2 := Nat.lt_floor_add_one c
  generalize ⌊c⌋₊ = n at f1 f2
  have hn0 : (0 : ℚ) ≤ n := Nat.cast_nonneg n
  have hnr : P.fmt.rep (((n : ℤ) : ℤ) : ℚ) := P.rep_of_int (by
    rw [abs_of_nonneg (by positivity)]
    have : (n : ℚ) ≤ 2 ^ P.p := f1.trans hcp
    exact_mod_cast this)
  have ht : truncG (Flt.fin (F := P.fmt) _ hcr : Flt P.fmt) = some (Flt.fin (F := P.fmt) _ hnr) := by
    refine truncG_int hcr hnr ?_ ?_ ?_ ?_ <;> push_cast <;> rw [← hc]
    · positivity
    · rw [abs_of_nonneg hn0, abs_of_nonneg hc0]; exact f1
    · rw [abs_of_nonneg hn0, abs_of_nonneg hc0]; exact f2
    · rw [abs_of_nonneg hc0]; norm_num at hc62 ⊢; linarith
  have hmodz : ∀ (hz : P.fmt.rep (P.fl (y * n))) (hr : P.fmt.rep (P.fl (x - P.fl (y * n)))),
      modG (Flt.fin x hx : Flt P.fmt) (Flt.fin y hy) = some (Flt.fin (F := P.fmt) _ hr) := by
    intro hz hr
    unfold modG
    rw [div_fin hx hy hyp.ne', round_fl hcr, ht, Option.map_some, mul_fin]
    push_cast
    rw [round_fl hz, sub_fin, round_fl hr]
  rcases Nat.eq_zero_or_pos n with hn | hn
  · -- the argument is less than the divisor
    subst hn
    have hxy : x < y := by
      by_contra hcon
      have : (1 : ℚ) ≤ c := P.le_fl_of_rep P.rep_one (by rw [le_div_iff₀ hyp]; linarith)
      push_cast at f2; linarith
    have hz : P.fmt.rep (P.fl (y * ((0 : ℕ) : ℚ))) := by
      simp only [Nat.cast_zero, mul_zero, P.fl_zero]; exact P.fmt.rep_zero
    have e : P.fl (x - P.fl (y * ((0 : ℕ) : ℚ))) = x := by
      simp only [Nat.cast_zero, mul_zero, P.fl_zero, sub_zero]; exact P.fl_rep hx.1
    have hr : P.fmt.rep (P.fl (x - P.fl (y * ((0 : ℕ) : ℚ)))) := by rw [e]; exact hx
    refine ⟨_, hr, hmodz hz hr, ?_, ?_, 0, ?_⟩ <;> rw [e]
    · have : 0 ≤ 4 * u * x := by positivity
      linarith
    · have : 0 ≤ 4 * u * (x + y) := by positivity
      linarith
    · simp only [Nat.cast_zero, mul_zero, sub_zero, sub_self, abs_zero]; positivity
  have hn1 : (1 : ℚ) ≤ n := by exact_mod_cast hn
  have hq0 : 0 ≤ x / y := by positivity
  have hqh : 1 / 2 ≤ x / y := by
    by_contra hcon
    have : c ≤ 1 / 2 := P.fl_le_of_rep P.rep_half.1 (not_le.1 hcon).le
    linarith
  have e1 := hnorm (x / y) (by rw [abs_of_nonneg hq0]; exact hqh)
  rw [abs_of_nonneg hq0, abs_le, ← hc] at e1
  have hyn : 1 ≤ y * n := by nlinarith
  have e2 := hnorm (y * n) (by rw [abs_of_nonneg (by linarith)]; linarith)
  rw [abs_of_nonneg (by linarith : 0 ≤ y * (n : ℚ))] at e2
  have e2' := abs_le.1 e2
  have hxq : x / y * y = x := by field_simp
  -- n lies within the rounding error of the quotient
  have k1 : y * n ≤ x + u * x := by
    have : (n : ℚ) * y ≤ (x / y + u * (x / y)) * y := mul_le_mul_of_nonneg_right (by linarith) hyp.le
    calc y * n = n * y := mul_comm _ _
      _ ≤ (x / y + u * (x / y)) * y := this
      _ = x / y * y + u * (x / y * y) := by ring
      _ = x + u * x := by rw [hxq]
  have k2 : x - u * x - y ≤ y * n := by
    have : (x / y - u * (x / y) - 1) * y ≤ n * y := mul_le_mul_of_nonneg_right (by linarith) hyp.le
    calc x - u * x - y = x / y * y - u * (x / y * y) - y := by rw [hxq]
      _ = (x / y - u * (x / y) - 1) * y := by ring
      _ ≤ n * y := this
      _ = y * n := mul_comm _ _
  set z := P.fl (y * n) with hz
  have hux : 0 ≤ u * x := by positivity
  have huy : 0 ≤ u * y := by positivity
  have huux : u * (u * x) ≤ 1 / 8 * (u * x) := mul_le_mul_of_nonneg_right hu8 hux
  have huyn : u * (y * n) ≤ u * (x + u * x) := mul_le_mul_of_nonneg_left k1 hu.le
  have z1 : z ≤ x + 2 * (u * x) + u * (u * x) := by linarith
  have z2 : x - 2 * (u * x) - u * (u * x) - y ≤ z := by linarith
  have hzr : P.Rep z := P.rep_fl _
  have hzb : P.fmt.rep z := rep_of_fl (by
    rw [← hz, abs_of_nonneg (P.fl_nonneg (by linarith))]
    have : u * x ≤ 1 / 8 * x := mul_le_mul_of_nonneg_right hu8 hx0
    linarith)
  have e3 := fl_sub_err hx.1 hzr
  rw [hue] at e3
  have hd : |x - z| ≤ y + 2 * (u * x) + u * (u * x) := by rw [abs_le]; constructor <;> linarith
  have hud : u * |x - z| ≤ u * (y + 2 * (u * x) + u * (u * x)) := mul_le_mul_of_nonneg_left hd hu.le
  have huuux : u * (u * (u * x)) ≤ 1 / 8 * (u * (u * x)) := mul_le_mul_of_nonneg_right hu8 (by positivity)
  have e3' := abs_le.1 (e3.trans hud)
  have hux8 : u * x ≤ 1 / 8 * x := mul_le_mul_of_nonneg_right hu8 hx0
  have huy8 : u * y ≤ 1 / 8 * y := mul_le_mul_of_nonneg_right hu8 hyp.le
  have hrb : P.fmt.rep (P.fl (x - z)) := rep_of_fl (by
    rw [abs_lt]; constructor <;> linarith)
  refine ⟨P.fl (x - z), hrb, hmodz hzb hrb, ?_, by linarith, n, ?_⟩
  · -- rounding does not enlarge a negative difference by more than the factor 1 + u
    rcases le_or_gt z x with h | h
    · have := P.fl_nonneg (q := x - z) (by linarith)
      linarith
    · have h3 : u * |x - z| ≤ u * (2 * (u * x) + u * (u * x)) := by
        refine mul_le_mul_of_nonneg_left ?_ hu.le
        rw [abs_of_neg (by linarith)]; linarith
      have h4 := abs_le.1 (e3.trans h3)
      linarith
  · have : P.fl (x - z) - (x - y * n) = (P.fl (x - z) - (x - z)) - (z - y * n) := by ring
    rw [this]
    refine (abs_sub _ _).trans ?_
    linarith [e3.trans hud]

/-- Non-vacuity: 17 full turns in `double`. -/
example : ∃ x y : ℚ, binary64.fmt.rep x ∧ binary64.fmt.rep y ∧ 1 ≤ y ∧ 0 ≤ x ∧ x ≤ y * 2 ^ binary64.p ∧ x ≤ y * 2 ^ 62 ∧
    4 * (x + y) < binary64.bound := by
  refine ⟨7516377611530217 / 2 ^ 46, 884279719003555 / 2 ^ 47, ?_, ?_, by norm_num, by norm_num, by norm_num [binary64], by norm_num, ?_⟩
  · exact rep64 7516377611530217 (-46) (by norm_num) (by norm_num) (by norm_num) (by rw [abs_of_pos (by norm_num)]; norm_num)
  · exact rep64 884279719003555 (-47) (by norm_num) (by norm_num) (by norm_num) (by rw [abs_of_pos (by norm_num)]; norm_num)
  · unfold BinPar.bound binary64
    have h : (2 : ℚ) ^ (10 : ℤ) ≤ 2 ^ (((53 : ℕ) : ℤ) + 971) := zpow_le_zpow_right₀ (by norm_num) (by norm_num)
    refine lt_of_lt_of_le ?_ h
    norm_num

end vm
